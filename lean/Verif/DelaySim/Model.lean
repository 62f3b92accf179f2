import Verif.CircularIndex.Model

/-!
Model of the simulator of a delayed link, /repo/module/udp_delay_sim/src/UdpDelaySim.cpp ("Sim.cpp" below), with the ring of
/repo/common/util/src/CircularIndexBufferSingleProducerSingleConsumerConfigurable.cpp, which here is used by one thread.

The clock does not go back. Timers end at their time or later. The start, the name of the destination and the rates that are shown are not modelled, nor is
the public function with which packets are put into the queue from outside; the answers of the function that drops packets are part of the events.
-/

namespace Hdtn.DelaySim

open Hdtn.CircularIndex

/-- The configuration; `losStart` and `losDuration` in the unit of the clock. -/
structure Cfg where
  vectors : Nat
  maxPacket : Nat
  delay : Nat
  losStart : Nat
  losDuration : Nat
deriving DecidableEq, Repr

/-- A place in the ring: `m_udpReceiveBuffersCbVec`, `m_udpReceiveBytesTransferredCbVec` and `m_expiriesCbVec` at one index. -/
structure Slot where
  buffer : Bytes
  bytes : Nat
  expiry : Nat
deriving DecidableEq, Repr

/-- The state. `timer` is the index and time of the send timer while it waits, `sending` the index while a packet is being sent, `losTimer` the time and the
argument of the timer for loss of signal. `sent` is not in the program: the packets that were sent, with the times. -/
structure Sim where
  now : Nat
  buffer : Bytes
  first : Nat
  last : Nat
  slots : Nat → Slot
  running : Bool
  timer : Option (Nat × Nat)
  sending : Option Nat
  los : Bool
  losStarts : Nat
  losTimer : Option (Nat × Bool)
  overruns : Nat
  closed : Bool
  sent : List (Nat × Bytes)

/-- The constructor, Sim.cpp:24-75, and `OnResolve`, Sim.cpp:149-158. -/
def Sim.start (c : Cfg) : Sim :=
  ⟨0, List.replicate c.maxPacket 0, 0, 0, fun _ => ⟨List.replicate c.maxPacket 0, 0, 0⟩, false, none, none, false, 0, none, 0, false, []⟩

/-- `DoUdpShutdown`, Sim.cpp:221-251. -/
def Sim.shutdown (s : Sim) : Sim := { s with closed := true, timer := none, losTimer := none }

/-- `TryRestartSendDelayTimer`, Sim.cpp:253-262. -/
def Sim.restart (s : Sim) : Sim :=
  if s.running then s
  else
    match indexForRead s.first s.last with
    | none => s
    | some i => { s with timer := some (i, (s.slots i).expiry), running := true }

/-- `QueuePacketForDelayedSend_NotThreadSafe`, Sim.cpp:199-219. The buffers are swapped. -/
def Sim.queue (c : Cfg) (s : Sim) (bytes : Nat) : Sim :=
  match indexForWrite c.vectors s.last s.first with
  | none => { s with overruns := s.overruns + 1 }
  | some i =>
    ({ s with
      buffer := (s.slots i).buffer
      slots := fun j => if j = i then ⟨s.buffer, bytes, s.now + c.delay⟩ else s.slots j
      last := wrapInc c.vectors s.last } : Sim).restart

/-- A datagram arrives and `HandleUdpReceive` is called, Sim.cpp:170-196. The part that fits is at the beginning of the buffer. `drop` is the answer of the
function that drops packets. -/
def Sim.receive (c : Cfg) (s : Sim) (p : Bytes) (drop : Bool) : Sim :=
  let data := p.take s.buffer.length
  let s : Sim := { s with buffer := data ++ s.buffer.drop data.length }
  let s : Sim :=
    if c.losStart ≠ 0 ∧ s.losStarts = 0 then { s with losStarts := s.losStarts + 1, losTimer := some (s.now + c.losStart, true) } else s
  if drop then s
  else if s.los then s
  else s.queue c data.length

/-- `OnSendDelay_TimerExpired`, Sim.cpp:264-276. -/
def Sim.expired (s : Sim) : Sim :=
  match s.timer with
  | none => s
  | some (i, t) => if t ≤ s.now then { s with timer := none, sending := some i } else s

/-- `HandleUdpSend`, Sim.cpp:278-290. What is sent is what is in the buffer. -/
def Sim.handleSend (c : Cfg) (s : Sim) (ok : Bool) : Sim :=
  match s.sending with
  | none => s
  | some i =>
    if ok then
      ({ s with
        sending := none
        sent := s.sent ++ [(s.now, (s.slots i).buffer.take (s.slots i).bytes)]
        running := false
        first := wrapInc c.vectors s.first } : Sim).restart
    else ({ s with sending := none } : Sim).shutdown

/-- `LossOfSignal_TimerExpired`, Sim.cpp:328-347. -/
def Sim.losExpired (c : Cfg) (s : Sim) : Sim :=
  match s.losTimer with
  | none => s
  | some (t, begin) =>
    if t ≤ s.now then { s with los := begin, losTimer := if begin then some (s.now + c.losDuration, false) else none } else s

/-- What happens: time goes by; a datagram arrives; a timer ends; a packet was sent or could not be; an error of the socket, or the end. -/
inductive Ev
  | clock (d : Nat)
  | receive (p : Bytes) (drop : Bool)
  | expired
  | handleSend (ok : Bool)
  | losExpired
  | error
deriving DecidableEq, Repr

/-- One event; nothing happens any more once the socket is closed. -/
def Sim.step (c : Cfg) (s : Sim) (e : Ev) : Sim :=
  match e with
  | .clock d => { s with now := s.now + d }
  | .receive p drop => if s.closed then s else s.receive c p drop
  | .expired => if s.closed then s else s.expired
  | .handleSend ok => if s.closed then s else s.handleSend c ok
  | .losExpired => if s.closed then s else s.losExpired c
  | .error => s.shutdown

/-- A history. -/
def Sim.run (c : Cfg) (s : Sim) (es : List Ev) : Sim := es.foldl (Sim.step c) s

end Hdtn.DelaySim
