import Verif.LtpRng.Model

/-!
# Model of how an LTP engine sends cancel segments and link pings

What is modelled: the queue of cancel segments to be sent, their timers, their retransmission, the
acknowledgements, the link pings (a ping is a cancel segment of a session that does not exist) and
the rule to refuse a session with a wrong client service only once.
What is simplified: the timers are the set of cancel segments under a running timer, and any of them
may expire at any time (the timer manager is modelled on its own in `Verif.LtpTimers`); time only
shows as whether the next ping is due; the segments' bytes are left out (`Verif.LtpWire`), and so
are the sessions themselves (`Verif.LtpSender`, `Verif.LtpReceiver`), which here are just a source of
requests to cancel.
-/

namespace Hdtn.LtpCancel
open Hdtn.LtpRng

/-- `Ltp::session_id_t`, Ltp.h:135-155. -/
structure Sid where
  engine : Nat
  number : Nat
deriving DecidableEq, Repr

/-- `CANCEL_SEGMENT_REASON_CODES`, Ltp.h:118-127, by number. The one the engine looks at is
`UNREACHABLE`. -/
abbrev Reason := Nat

/-- `CANCEL_SEGMENT_REASON_CODES::USER_CANCELLED`, Ltp.h:120. -/
def userCancelled : Reason := 0

/-- `CANCEL_SEGMENT_REASON_CODES::UNREACHABLE`, Ltp.h:121. -/
def unreachable : Reason := 1

/-- `cancel_segment_timer_info_t`, LtpEngine.h:61-70. The retry count is a `uint8_t`. -/
structure Info where
  sid : Sid
  reason : Reason
  fromSender : Bool
  retry : Nat
deriving DecidableEq, Repr

/-- The engine's settings: its own engine id `M_THIS_ENGINE_ID`, `m_maxRetriesPerSerialNumber` (a
`uint32_t`), `M_FORCE_32_BIT_RANDOM_NUMBERS`, whether `m_senderPingSecondsOrZeroToDisable` is nonzero,
and the index of the engine its ping session number derives from. -/
structure Cfg where
  me : Nat
  maxRetries : Nat
  force32 : Bool
  pings : Bool
  index : Nat

/-- The session number of a ping, LtpEngine.cpp:1689. -/
def Cfg.pingNumber (cfg : Cfg) : Nat :=
  if cfg.force32 then ping32 (Rng.init cfg.index) else ping64 (Rng.init cfg.index)

/-- `m_queueCancelSegmentTimerInfo`, the segments under a timer of `m_timeManagerOfCancelSegments`,
`m_ltpSessionsWithWrongClientServiceId`, `m_nextPingStartExpiry` being `pos_infin`, and
`m_transmissionRequestServedAsPing`; LtpEngine.h:1024-1133. -/
structure State where
  queue : List Info
  timers : List Info
  refused : List Sid
  pinging : Bool
  served : Bool
deriving DecidableEq, Repr

/-- LtpEngine.cpp:55-56. -/
def State.init : State := ⟨[], [], [], false, false⟩

/-- What happens to the engine. `due` says that the time of the next ping is reached. -/
inductive Event where
  /-- A sending session is to be cancelled. -/
  | cancelTx (number : Nat) (reason : Reason)
  /-- A receiving session is to be cancelled. -/
  | cancelRx (sid : Sid) (reason : Reason)
  /-- A data segment for a client service that is not this engine's. -/
  | wrongService (sid : Sid)
  /-- The engine is asked for the next packet to send. -/
  | send
  /-- The timer of the session's cancel segment expires. -/
  | expired (sid : Sid)
  /-- A cancel acknowledgement arrives. -/
  | ack (sid : Sid) (toSender : Bool)
  /-- The housekeeping timer expires. -/
  | housekeeping (due : Bool)
  /-- The user asks for a transmission. -/
  | transmission
deriving DecidableEq, Repr

/-- What the engine does: counts a cancellation or a ping as started, sends a cancel segment, counts a
cancellation as acknowledged or failed, and tells the user that the link is up or down. -/
inductive Eff where
  | started (sid : Sid)
  | sent (sid : Sid) (reason : Reason) (fromSender : Bool)
  | acked (sid : Sid)
  | failed (sid : Sid)
  | pingStarted (sid : Sid)
  | linkUp
  | linkDown
deriving DecidableEq, Repr

/-- `isPing`, LtpEngine.cpp:1162 and 1199. -/
def isPing (cfg : Cfg) (fromSender : Bool) (sid : Sid) : Bool :=
  fromSender && isPingSession sid.number cfg.force32

/-- Queues a first cancel segment, LtpEngine.cpp:991-997, 1027-1033, 1234-1240, 1276-1282, 1412-1418,
1651-1657 and 1686-1692. -/
def enqueue (st : State) (sid : Sid) (fromSender : Bool) (reason : Reason) : State :=
  { st with queue := st.queue ++ [⟨sid, reason, fromSender, 1⟩] }

/-- The cancel segment part of `GetNextPacketToSend`, LtpEngine.cpp:695-720: the segment is sent
whether or not its timer can be started; a timer cannot be started while there is one for the same
session (LtpTimerManager.cpp:67). -/
def send (st : State) : State × List Eff :=
  match st.queue with
  | [] => (st, [])
  | i :: rest =>
    ({ st with
        queue := rest
        timers := if st.timers.any (fun j => j.sid = i.sid) then st.timers else st.timers ++ [i] },
      [.sent i.sid i.reason i.fromSender])

/-- `CancelSegmentTimerExpiredCallback`, LtpEngine.cpp:1191-1228, after the timer manager removed the
timer. The retry count is incremented as a `uint8_t`, line 1205. `none`: no such timer runs. -/
def expired (cfg : Cfg) (st : State) (sid : Sid) : Option (State × List Eff) :=
  match st.timers.find? (fun j => j.sid = sid) with
  | none => none
  | some i =>
    let st := { st with timers := st.timers.filter (fun j => j.sid ≠ sid) }
    if i.retry ≤ cfg.maxRetries then
      some ({ st with queue := st.queue ++ [{ i with retry := (i.retry + 1) % 256 }] }, [])
    else if isPing cfg i.fromSender i.sid then
      some ({ st with pinging := false }, [.linkDown])
    else some (st, [.failed i.sid])

/-- `CancelAcknowledgementSegmentReceivedCallback`, LtpEngine.cpp:1124-1189, in the build without
`LTP_ENGINE_ALLOW_SAME_ENGINE_TRANSFERS`. -/
def ack (cfg : Cfg) (st : State) (sid : Sid) (toSender : Bool) : State × List Eff :=
  if toSender ≠ decide (sid.engine = cfg.me) then (st, [])
  else
    match st.timers.find? (fun j => j.sid = sid) with
    | none => (st, [])
    | some i =>
      let st := { st with timers := st.timers.filter (fun j => j.sid ≠ sid) }
      if isPing cfg toSender sid then ({ st with pinging := false }, [.linkUp])
      else if !toSender && decide (i.reason = unreachable) then
        ({ st with refused := st.refused.filter (· ≠ i.sid) }, [.acked sid])
      else (st, [.acked sid])

/-- The client service test of `DataSegmentReceivedCallback`, LtpEngine.cpp:1386-1429, for a segment
with a wrong client service. -/
def wrongService (cfg : Cfg) (st : State) (sid : Sid) : State × List Eff :=
  if sid.engine = cfg.me then (st, [])
  else if sid ∈ st.refused then (st, [])
  else (enqueue { st with refused := sid :: st.refused } sid false unreachable, [.started sid])

/-- The ping part of `OnHousekeeping_TimerExpired`, LtpEngine.cpp:1677-1696. While a ping goes on the
next one is due at `pos_infin`, that is never. -/
def housekeeping (cfg : Cfg) (st : State) (due : Bool) : State × List Eff :=
  if cfg.pings && due && !st.pinging then
    if st.served then ({ st with served := false }, [])
    else
      (enqueue { st with pinging := true } ⟨cfg.me, cfg.pingNumber⟩ true userCancelled,
        [.pingStarted ⟨cfg.me, cfg.pingNumber⟩])
  else (st, [])

/-- One event. `none`: it cannot happen: an expiry of a timer that does not run, and the cancellation of
a receiving session of this engine's own, as there is none (LtpEngine.cpp:1387-1401). The sessions call
with their own session id, whose engine is this engine for a sending session (LtpEngine.cpp:891). -/
def step (cfg : Cfg) (st : State) : Event → Option (State × List Eff)
  | .cancelTx number reason => some (enqueue st ⟨cfg.me, number⟩ true reason, [.started ⟨cfg.me, number⟩])
  | .cancelRx sid reason =>
    if sid.engine = cfg.me then none else some (enqueue st sid false reason, [.started sid])
  | .wrongService sid => some (wrongService cfg st sid)
  | .send => some (send st)
  | .expired sid => expired cfg st sid
  | .ack sid toSender => some (ack cfg st sid toSender)
  | .housekeeping due => some (housekeeping cfg st due)
  | .transmission => some ({ st with served := true }, [])

/-- A history of events: the state reached and everything done. -/
def run (cfg : Cfg) : State → List Event → Option (State × List Eff)
  | st, [] => some (st, [])
  | st, e :: es => do
    let (st, out) ← step cfg st e
    let (st, outs) ← run cfg st es
    pure (st, out ++ outs)

end Hdtn.LtpCancel
