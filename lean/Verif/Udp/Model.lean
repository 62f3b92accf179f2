import Verif.TokenBucket.Props

/-!
The UDP convergence layer: `common/udp/src/UdpBundleSource.cpp` and
`common/udp/src/UdpBundleSink.cpp`, with the rate limiter of `Verif.TokenBucket`.

The rings are lists here; that a ring with `n` slots behaves as a queue with room for `n - 1`
entries is C33.  Every function and handler runs to its end before the next starts.  Times are
microseconds and do not run backwards.
-/

namespace Hdtn.Udp

open TokenBucket

/-- A bundle with its user data, in a vector or in a ZeroMQ message. -/
structure Pkt where
  zmq : Bool
  bytes : Bytes
  tag : Nat
  deriving DecidableEq, Repr

/-- What the source tells its user. -/
inductive Note where
  | sent (tag : Nat)
  | failed (bytes : Bytes) (tag : Nat)
  deriving DecidableEq, Repr

/-- What is seen from outside and of the limiter: time that passes, a send that is started, the
limiter being told the time. -/
inductive Mark where
  | passed (ticks : Nat)
  | started (bytes : Nat)
  | refreshed
  deriving DecidableEq, Repr

/-- The source: `m_readyToForward`, whether `OnResolve` has opened the socket once,
`m_rateBpsOrZeroToDisable`, the limiter, the posted sends that have not run, the two queues, the
sends in progress, `m_bytesToAckBySentCallbackCb` with the user data, the notes to the user, the
datagrams sent, the time at which the refresh timer is due, `m_lastTimeTokensWereRefreshed`, the
present time and, for reference only, a log. -/
structure Source where
  ready : Bool
  opened : Bool
  rate : Nat
  limiter : Limiter
  posted : List Pkt
  vecQ : List Pkt
  zmqQ : List Pkt
  flight : List Pkt
  toAck : List (Nat × Nat)
  notes : List Note
  wire : List Bytes
  timer : Option Nat
  last : Option Nat
  now : Nat
  log : List Mark
  deriving Repr

/-- The settings: `maxUnacked`, `m_rateLimitPrecisionInterval`, `m_tokenRefreshInterval`. -/
structure Cfg where
  maxUnacked : Nat
  window : Nat
  refresh : Nat

/-- Ticks in a second. -/
def second : Nat := 1000000

/-- The constructor (UdpBundleSource.cpp:30-64). -/
def Source.init : Source :=
  ⟨false, false, 0, ⟨0, second, 0, 0⟩, [], [], [], [], [], [], [], none, none, 0, []⟩

/-- `UpdateRate` (UdpBundleSource.cpp:129-137).  `none`: undefined behaviour, as in the functions
below. -/
def Source.setRate (cfg : Cfg) (s : Source) (bitsPerSec : Nat) : Option Source := do
  let l ← TokenBucket.setRate ((bitsPerSec / 8 : Nat) : Int) second cfg.window
  some { s with rate := bitsPerSec, limiter := l }

/-- `OnResolve` (UdpBundleSource.cpp:237-260); `Connect` is called once. -/
def Source.resolved (s : Source) : Source :=
  if s.opened then s else { s with ready := true, opened := true }

/-- `Forward` (UdpBundleSource.cpp:139-191, both forms); the result is whether the bundle was taken.
The ring has `maxUnacked + 10` slots. -/
def Source.forward (cfg : Cfg) (s : Source) (p : Pkt) : Source × Bool :=
  if s.ready = false then (s, false)
  else if cfg.maxUnacked + 10 ≤ s.toAck.length + 1 then (s, false)
  else ({ s with toAck := s.toAck ++ [(p.bytes.length, p.tag)], posted := s.posted ++ [p] }, true)

/-- The condition `!m_rateBpsOrZeroToDisable || m_tokenRateLimiter.TakeTokens(size)`
(UdpBundleSource.cpp:267, :289, :410, :428). -/
def Source.grant (s : Source) (n : Nat) : Option (Bool × Source) :=
  if s.rate = 0 then some (true, s)
  else do
    let (ok, l) ← takeTokens s.limiter n
    some (ok, { s with limiter := l })

/-- `async_send_to` (UdpBundleSource.cpp:269 and others). -/
def Source.start (s : Source) (p : Pkt) : Source :=
  { s with flight := s.flight ++ [p], log := s.log ++ [.started p.bytes.length] }

/-- `TryRestartTokenRefreshTimer` (UdpBundleSource.cpp:376-399). -/
def Source.restart (cfg : Cfg) (s : Source) : Source :=
  match s.timer with
  | some _ => s
  | none => { s with
      timer := some (s.now + cfg.refresh)
      last := match s.last with | none => some s.now | some t => some t }

/-- The first packet of a queue is sent if there are tokens for it (UdpBundleSource.cpp:265-278,
:287-300); the result is the queue afterwards. -/
def Source.sendFront (s : Source) : List Pkt → Option (List Pkt × Source)
  | [] => some ([], s)
  | p :: q => do
    let (ok, s) ← s.grant p.bytes.length
    if ok then some (q, s.start p) else some (p :: q, s)

/-- `HandlePostForUdpSendVecMessage` and `HandlePostForUdpSendZmqMessage`
(UdpBundleSource.cpp:262-304): the first posted call runs. -/
def Source.runPost (cfg : Cfg) (s : Source) : Option Source :=
  match s.posted with
  | [] => some s
  | p :: rest =>
    let s1 : Source := { s with posted := rest }
    if p.zmq then do
      let (q, s2) ← s1.sendFront (s1.zmqQ ++ [p])
      some (Source.restart cfg { s2 with zmqQ := q })
    else do
      let (q, s2) ← s1.sendFront (s1.vecQ ++ [p])
      some (Source.restart cfg { s2 with vecQ := q })

/-- The two loops of `OnTokenRefresh_TimerExpired` (UdpBundleSource.cpp:407-445): packets are sent
until there are no tokens; the result is the queue afterwards. -/
def Source.drain (s : Source) : List Pkt → Option (List Pkt × Source)
  | [] => some ([], s)
  | p :: q => do
    let (ok, s) ← s.grant p.bytes.length
    if ok then (s.start p).drain q else some (p :: q, s)

/-- The limiter has been told the time (UdpBundleSource.cpp:402-406). -/
def Source.refreshed (s : Source) (l : Limiter) : Source :=
  { s with limiter := l, last := some s.now, timer := none, log := s.log ++ [.refreshed] }

/-- The rest of `OnTokenRefresh_TimerExpired` (UdpBundleSource.cpp:407-451). -/
def Source.drainAll (cfg : Cfg) (s : Source) : Option Source := do
  let (q, s1) ← s.drain s.vecQ
  let s2 : Source := { s1 with vecQ := q }
  if q ≠ [] then some (s2.restart cfg)
  else do
    let (q', s3) ← s2.drain s2.zmqQ
    let s4 : Source := { s3 with zmqQ := q' }
    if q' ≠ [] then some (s4.restart cfg)
    else if isFull s4.limiter then some s4
    else some (s4.restart cfg)

/-- `OnTokenRefresh_TimerExpired` (UdpBundleSource.cpp:401-452), when the timer is due. -/
def Source.expire (cfg : Cfg) (s : Source) : Option Source :=
  match s.timer, s.last with
  | some due, some t =>
    if s.now < due then some s
    else do
      let l ← addTime s.limiter ((s.now - t : Nat) : Int)
      (s.refreshed l).drainAll cfg
  | _, _ => some s

/-- `ProcessPacketSent` (UdpBundleSource.cpp:329-355). -/
def Source.processSent (s : Source) (n : Nat) : Source × Bool :=
  match s.toAck with
  | [] => (s, false)
  | (size, tag) :: rest =>
    if size = n then ({ s with toAck := rest, notes := s.notes ++ [.sent tag] }, true)
    else (s, false)

/-- `HandleUdpSendVecMessage` and `HandleUdpSendZmqMessage` without error
(UdpBundleSource.cpp:307-327): the first send in progress is done.  Simplification: the shutdown
that is posted takes effect at once. -/
def Source.done (s : Source) : Source :=
  match s.flight with
  | [] => s
  | p :: rest =>
    let (s, ok) := Source.processSent { s with flight := rest, wire := s.wire ++ [p.bytes] } p.bytes.length
    if ok then s else { s with ready := false }

/-- The same with an error (UdpBundleSource.cpp:309-312, :320-323). -/
def Source.fails (s : Source) : Source :=
  match s.flight with
  | [] => s
  | _ :: rest => { s with flight := rest, ready := false }

/-- What happens at the source. -/
inductive Event where
  | setRate (bitsPerSec : Nat)
  | resolved
  | forward (p : Pkt)
  | runPost
  | expire
  | done
  | fails
  | passes (ticks : Nat)

/-- One event.  Sends succeed only while the socket is open. -/
def Source.step (cfg : Cfg) (s : Source) : Event → Option Source
  | .setRate r => s.setRate cfg r
  | .resolved => some s.resolved
  | .forward p => some (s.forward cfg p).1
  | .runPost => s.runPost cfg
  | .expire => s.expire cfg
  | .done => some (if s.ready then s.done else s)
  | .fails => some s.fails
  | .passes d => some { s with now := s.now + d, log := s.log ++ [.passed d] }

/-- Several events. -/
def Source.run (cfg : Cfg) (s : Source) : List Event → Option Source
  | [] => some s
  | e :: es => do
    let s ← s.step cfg e
    s.run cfg es

/-! ### The receiving side -/

/-- The sink: the datagrams in the ring, those given to the user,
`m_countCircularBufferOverruns`. -/
structure Sink where
  ring : List Bytes
  delivered : List Bytes
  overruns : Nat
  deriving Repr

/-- `M_NUM_CIRCULAR_BUFFER_VECTORS` and `M_MAX_UDP_PACKET_SIZE_BYTES`. -/
structure SinkCfg where
  slots : Nat
  maxSize : Nat

/-- `HandleUdpReceive` without error (UdpBundleSink.cpp:128-163).  The buffer handed to the operating
system has `maxSize` bytes, of a larger datagram it gets the first ones (as POSIX has it; the
buffers are swapped and always restored to this size, :184). -/
def Sink.receive (cfg : SinkCfg) (s : Sink) (d : Bytes) : Sink :=
  if cfg.slots ≤ s.ring.length + 1 then { s with overruns := s.overruns + 1 }
  else { s with ring := s.ring ++ [d.take cfg.maxSize] }

/-- A turn of `PopCbThreadFunc` that finds a datagram (UdpBundleSink.cpp:169-187). -/
def Sink.pop (s : Sink) : Sink :=
  match s.ring with
  | [] => s
  | d :: rest => { s with ring := rest, delivered := s.delivered ++ [d] }

/-- What happens at the sink. -/
inductive SinkEvent where
  | datagram (d : Bytes)
  | pop

/-- One event. -/
def Sink.step (cfg : SinkCfg) (s : Sink) : SinkEvent → Sink
  | .datagram d => s.receive cfg d
  | .pop => s.pop

/-- Several events, from the start. -/
def Sink.run (cfg : SinkCfg) (es : List SinkEvent) : Sink :=
  es.foldl (Sink.step cfg) ⟨[], [], 0⟩

end Hdtn.Udp
