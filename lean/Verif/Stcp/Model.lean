import Verif.Common.BigEndian

/-!
The simple TCP convergence layer: `common/stcp/src/StcpBundleSource.cpp`,
`common/stcp/src/StcpBundleSink.cpp` and the queue of writes, `common/util/src/TcpAsyncSender.cpp`.

The rings are lists here; that a ring with `n` slots behaves as a queue with room for `n - 1`
entries is C33.  Every function and handler runs to its end before the next starts.
-/

namespace Hdtn.Stcp

/-! ### The receiving side -/

/-- What the sink is waiting for: room in its ring, the four bytes of a size, or the bytes of a
bundle.  (`m_stateTcpReadActive` is false exactly when it is waiting for room.) -/
inductive Phase where
  | room
  | size
  | data (n : Nat)
  deriving DecidableEq, Repr

/-- The sink: what it waits for, the bytes that have arrived and have not been read, the bundles
committed to the ring, those given to the user, the calls of `TryStartTcpReceive` posted by the
other thread, and whether it has shut down. -/
structure Sink where
  phase : Phase
  buf : Bytes
  ring : List Bytes
  delivered : List Bytes
  posts : Nat
  closed : Bool
  deriving Repr

/-- `M_NUM_CIRCULAR_BUFFER_VECTORS` and `M_MAX_BUNDLE_SIZE_BYTES`. -/
structure Cfg where
  slots : Nat
  maxSize : Nat

/-- `TryStartTcpReceive` (StcpBundleSink.cpp:112-134). -/
def Sink.tryStart (cfg : Cfg) (s : Sink) : Sink :=
  if s.phase = .room ∧ s.closed = false then
    if cfg.slots ≤ s.ring.length + 1 then s else { s with phase := .size }
  else s

/-- The constructor (StcpBundleSink.cpp:25-60). -/
def Sink.init (cfg : Cfg) : Sink := Sink.tryStart cfg ⟨.room, [], [], [], 0, false⟩

/-- A read completes: `HandleTcpReceiveIncomingBundleSize` (StcpBundleSink.cpp:137-176) or
`HandleTcpReceiveBundleData` (StcpBundleSink.cpp:178-203), once all bytes asked for are there.
Simplification: the shutdown that is posted for a size over the limit takes effect at once. -/
def Sink.read (cfg : Cfg) (s : Sink) : Sink :=
  if s.closed then s
  else
    match s.phase with
    | .room => s
    | .size =>
      if s.buf.length < 4 then s
      else
        let n := beValue (s.buf.take 4)
        let s := { s with buf := s.buf.drop 4 }
        if n = 0 then s
        else if n > cfg.maxSize then { s with closed := true }
        else { s with phase := .data n }
    | .data n =>
      if s.buf.length < n then s
      else Sink.tryStart cfg
        { s with buf := s.buf.drop n, ring := s.ring ++ [s.buf.take n], phase := .room }

/-- A turn of `PopCbThreadFunc` (StcpBundleSink.cpp:207-233) that finds a bundle: it is given to the
user and its slot freed; the next turn posts `TryStartTcpReceive`. -/
def Sink.pop (s : Sink) : Sink :=
  match s.ring with
  | [] => s
  | b :: bs => { s with ring := bs, delivered := s.delivered ++ [b], posts := s.posts + 1 }

/-- What happens at the sink. -/
inductive SinkEvent where
  | arrive (bytes : Bytes)
  | read
  | pop
  | posted

/-- One event. -/
def Sink.step (cfg : Cfg) (s : Sink) : SinkEvent → Sink
  | .arrive bs => { s with buf := s.buf ++ bs }
  | .read => s.read cfg
  | .pop => s.pop
  | .posted => if s.posts = 0 then s else Sink.tryStart cfg { s with posts := s.posts - 1 }

/-- Several events. -/
def Sink.run (cfg : Cfg) (s : Sink) (es : List SinkEvent) : Sink := es.foldl (Sink.step cfg) s

/-! ### The sending side -/

/-- What is written: a bundle with its user data, or a keepalive.  (The bundle is in a vector; a
bundle in a ZeroMQ message differs only in that an empty one is reported when it fails.) -/
inductive Item where
  | bundle (b : Bytes) (tag : Nat)
  | keepAlive
  deriving DecidableEq, Repr

/-- What the source tells its user. -/
inductive Note where
  | sent (tag : Nat)
  | failed (b : Bytes) (tag : Nat)
  deriving DecidableEq, Repr

/-- The source: `m_readyToForward`, whether the socket is open, `m_sendErrorOccurred` and the queue
of the `TcpAsyncSender` (a write is in progress exactly if it is not empty),
`m_bytesToAckByTcpSendCallbackCb`, `m_dataServedAsKeepAlive`, the notes to the user and the bytes
written to the present connection. -/
structure Source where
  ready : Bool
  up : Bool
  err : Bool
  queue : List Item
  toAck : List Nat
  served : Bool
  notes : List Note
  wire : Bytes
  deriving Repr

/-- The constructor (StcpBundleSource.cpp:28-57). -/
def Source.init : Source := ⟨false, false, false, [], [], true, [], []⟩

/-- `GenerateDataUnitHeaderOnly` (StcpBundleSource.cpp:153-161) with the cast of its callers. -/
def header (n : Nat) : Bytes := toBe 4 (n % U32)

/-- The bytes written for an item (StcpBundleSource.cpp:229-238, :439-442). -/
def Item.bytes : Item → Bytes
  | .bundle b _ => header b.length ++ b
  | .keepAlive => [0, 0, 0, 0]

/-- `DoFailedBundleCallback` (TcpAsyncSender.cpp:109-116), the callbacks being set. -/
def Item.failNote : Item → List Note
  | .bundle b tag => if b = [] then [] else [.failed b tag]
  | .keepAlive => []

/-- `AsyncSend_NotThreadSafe` (TcpAsyncSender.cpp:51-67). -/
def Source.enqueue (s : Source) (i : Item) : Source :=
  if s.err then { s with notes := s.notes ++ i.failNote } else { s with queue := s.queue ++ [i] }

/-- `Forward` (StcpBundleSource.cpp:166-252); the result is whether the bundle was taken.
Simplification: the posted `AsyncSend_NotThreadSafe` runs at once (posted calls run in order, so
that only the order of its effects with those of the caller differs). -/
def Source.forward (maxUnacked : Nat) (s : Source) (b : Bytes) (tag : Nat) : Source × Bool :=
  if s.ready = false then (s, false)
  else if maxUnacked ≤ s.toAck.length + 1 then (s, false)
  else (Source.enqueue { s with toAck := s.toAck ++ [(b.length + 4) % U32], served := true }
    (.bundle b tag), true)

/-- `HandleTcpSend` without error (StcpBundleSource.cpp:365-385, and 388-398 for a keepalive). -/
def Source.acked (s : Source) : Item → Source
  | .keepAlive => s
  | .bundle b tag =>
    match s.toAck with
    | [] => s
    | n :: rest =>
      if n = (header b.length).length + b.length then
        { s with toAck := rest, notes := s.notes ++ [.sent tag] }
      else s

/-- `TcpAsyncSender::HandleTcpSend` without error (TcpAsyncSender.cpp:74-98): all bytes of the first
item are written. -/
def Source.written (s : Source) : Source :=
  match s.queue with
  | [] => s
  | i :: rest => Source.acked { s with queue := rest, wire := s.wire ++ i.bytes } i

/-- `TcpAsyncSender::HandleTcpSend` with an error (TcpAsyncSender.cpp:74-88), after `k` bytes. -/
def Source.broke (s : Source) (k : Nat) : Source :=
  match s.queue with
  | [] => s
  | i :: rest =>
    { s with
      err := true
      queue := []
      wire := s.wire ++ i.bytes.take k
      notes := s.notes ++ (i :: rest).flatMap Item.failNote }

/-- `OnNeedToSendKeepAliveMessage_TimerExpired` (StcpBundleSource.cpp:426-444). -/
def Source.timer (s : Source) : Source :=
  if s.served then { s with served := false } else s.enqueue .keepAlive

/-- `DoHandleSocketShutdown` (StcpBundleSource.cpp:455-486). -/
def Source.shutdown (s : Source) : Source := { s with ready := false, up := false }

/-- `OnConnect` (StcpBundleSource.cpp:305-338): a new sender for a new connection. -/
def Source.connect (s : Source) : Source :=
  { s with ready := true, up := true, err := false, queue := [], wire := [] }

/-- What happens at the source. -/
inductive SourceEvent where
  | forward (b : Bytes) (tag : Nat)
  | timer
  | written
  | broke (k : Nat)
  | shutdown
  | connect

/-- One event.  A write completes only while the socket is open; the timer runs only then.  A new
connection is made after a shutdown, seconds later, when all writes to the closed socket have
ended. -/
def Source.step (maxUnacked : Nat) (s : Source) : SourceEvent → Source
  | .forward b tag => (s.forward maxUnacked b tag).1
  | .timer => if s.up then s.timer else s
  | .written => if s.up then s.written else s
  | .broke k => s.broke k
  | .shutdown => s.shutdown
  | .connect => if s.up = false ∧ s.queue = [] then s.connect else s

/-- Several events. -/
def Source.run (maxUnacked : Nat) (s : Source) (es : List SourceEvent) : Source :=
  es.foldl (Source.step maxUnacked) s

end Hdtn.Stcp
