import Verif.LtpReport.Model
import Verif.LtpReceiver.Model

/-!
Model of a sending LTP session, `common/ltp/src/LtpSessionSender.cpp`.

The client data is in memory (the variant that reads it from files is left out), and the settings do
not change during a session. Numbers are `uint64_t`. `none` stands for a packet that reads outside the
client data and for loops that do not end. The shared timer managers are modelled by the timers of
this session: at most one per checkpoint serial number, and one for delayed retransmission, which runs
while `pending` is not empty. Statistics (`m_numCheckpointTimerExpiredCallbacks`, `m_isFailedSession`, ...)
are left out. A data segment is `LtpReceiver.Seg`; its encoding is the subject of `LtpWire`.
-/

namespace Hdtn.LtpSender
open Hdtn.FragmentSet Hdtn.LtpReport
open Hdtn.LtpReceiver (Seg Reason)

/-- The settings of `LtpSessionSenderCommonData`, LtpSessionSender.h:111-158, and the constant members
of a session: the client data and the length of its red part. -/
structure Cfg where
  mtu : Nat
  period : Nat
  maxRetries : Nat
  deferral : Bool
  service : Nat
  block : Bytes
  red : Nat
deriving DecidableEq, Repr

/-- `resend_fragment_t`, LtpSessionSender.h:50-69. -/
structure Resend where
  offset : Nat
  length : Nat
  checkpoint : Nat
  report : Nat
  flags : Nat
  retry : Nat
deriving DecidableEq, Repr

/-- What the session does: packets (`first` by `NextFirstPassDataToSend`, `again` and `ack` by
`NextTimeCriticalDataToSend`), the notice that the first pass is complete, the requests to be deleted
(cancelled or not), and the notice that there is something to send. -/
inductive Eff where
  | first (s : Seg)
  | again (s : Seg)
  | ack (serial : Nat)
  | transmitted
  | delete (cancelled : Bool) (reason : Reason)
  | producible
deriving DecidableEq, Repr

/-- The members of `LtpSessionSender`, LtpSessionSender.h:77-103 and :315-353. -/
structure State where
  index : Nat
  counter : Nat
  nextCsn : Nat
  acked : List Frag
  acks : List Nat
  resend : List Resend
  seen : List Nat
  timers : List (Nat × Resend)
  pending : List (Frag × Nat)
  largestEnd : Nat
  didNotify : Bool
  allRed : Bool
deriving DecidableEq, Repr

/-- The constructor, LtpSessionSender.cpp:63-95. -/
def init (cfg : Cfg) (serial : Nat) : State where
  index := 0
  counter := cfg.period
  nextCsn := serial
  acked := []
  acks := []
  resend := []
  seen := []
  timers := []
  pending := []
  largestEnd := 0
  didNotify := false
  allRed := false

/-- The `if (!m_didNotifyForDeletion)` blocks, e.g. LtpSessionSender.cpp:464-467. -/
def notifyDelete (st : State) (cancelled : Bool) (reason : Reason) : State × List Eff :=
  if st.didNotify then (st, []) else ({ st with didNotify := true }, [.delete cancelled reason])

/-- `boost::asio::buffer(data() + offset, length)`, e.g. LtpSessionSender.cpp:413: the packet takes
its bytes from there. -/
def slice (block : Bytes) (offset length : Nat) : Option Bytes :=
  if offset + length ≤ block.length then some ((block.drop offset).take length) else none

/-- `StartTimer`: fails, and only logs, if there is one with this serial number. -/
def startTimer (timers : List (Nat × Resend)) (f : Resend) : List (Nat × Resend) :=
  if timers.any (fun t => t.1 == f.checkpoint) then timers else timers ++ [(f.checkpoint, f)]

/-- `size() == 1`, `beginIndex == 0` and `endIndex >= M_LENGTH_OF_RED_PART - 1`,
LtpSessionSender.cpp:469-471, :556-560. -/
def redAcked (cfg : Cfg) (acked : List Frag) : Bool :=
  match acked with
  | [f] => f.b = 0 ∧ f.e ≥ sub64 cfg.red 1
  | _ => false

/-- The red branch of `NextFirstPassDataToSend`, LtpSessionSender.cpp:333-417. -/
def firstRed (cfg : Cfg) (st : State) : Option (State × List Eff) :=
  let n := min (cfg.red - st.index) cfg.mtu
  let endRed : Bool := n + st.index = cfg.red
  let periodic : Bool := cfg.period ≠ 0 ∧ sub64 st.counter 1 = 0
  let counter := if cfg.period = 0 then st.counter else if periodic then cfg.period
    else sub64 st.counter 1
  let flags := if endRed then (if cfg.red = cfg.block.length then 3 else 2)
    else if periodic then 1 else 0
  match slice cfg.block st.index n with
  | none => none
  | some d =>
    if periodic ∨ endRed then
      some ({ st with
          index := st.index + n
          counter := counter
          nextCsn := (st.nextCsn + 1) % U64
          timers := startTimer st.timers ⟨st.index, n, st.nextCsn, 0, flags, 1⟩ },
        [.first ⟨flags, cfg.service, st.index, n, some (st.nextCsn, 0), some d⟩])
    else
      some ({ st with index := st.index + n, counter := counter },
        [.first ⟨flags, cfg.service, st.index, n, none, some d⟩])

/-- The green branch of `NextFirstPassDataToSend`, LtpSessionSender.cpp:418-453. Flag values: 4 is
`GREENDATA`, 7 is `GREENDATA_ENDOFBLOCK` (Ltp.h:93-100). -/
def firstGreen (cfg : Cfg) (st : State) : Option (State × List Eff) :=
  let n := min (cfg.block.length - st.index) cfg.mtu
  let flags := if n + st.index = cfg.block.length then 7 else 4
  match slice cfg.block st.index n with
  | none => none
  | some d =>
    some ({ st with index := st.index + n },
      [.first ⟨flags, cfg.service, st.index, n, none, some d⟩])

/-- `NextFirstPassDataToSend`, LtpSessionSender.cpp:330-486. -/
def firstPass (cfg : Cfg) (st : State) : Option (State × List Eff) :=
  if st.index < cfg.block.length then
    match (if st.index < cfg.red then firstRed cfg st else firstGreen cfg st) with
    | none => none
    | some (st, effs) =>
      if st.index = cfg.block.length then
        let r := if cfg.red = 0 ∨ redAcked cfg st.acked then notifyDelete st false .reserved
          else (st, [])
        some (r.1, effs ++ .transmitted :: r.2)
      else some (st, effs)
  else some (st, [])

/-- `NextTimeCriticalDataToSend`, LtpSessionSender.cpp:216-328. -/
def nextCritical (cfg : Cfg) (st : State) : Option (State × List Eff) :=
  match st.acks with
  | a :: rest => some ({ st with acks := rest }, [.ack a])
  | [] =>
    if st.allRed then some ({ st with resend := [] }, [])
    else
      match st.resend with
      | [] => some (st, [])
      | f :: rest =>
        match slice cfg.block f.offset f.length with
        | none => none
        | some d =>
          if f.flags ≠ 0 then
            some ({ st with resend := rest, timers := startTimer st.timers f },
              [.again ⟨f.flags, cfg.service, f.offset, f.length, some (f.checkpoint, f.report), some d⟩])
          else
            some ({ st with resend := rest },
              [.again ⟨f.flags, cfg.service, f.offset, f.length, none, some d⟩])

/-- The inner loop of `ResendDataFromReport`, LtpSessionSender.cpp:680-706: offsets and lengths. It does
not end if nothing fits a packet or if the range ends at the largest number. -/
def pieces (mtu b e : Nat) : Option (List (Nat × Nat)) :=
  if e < b then some []
  else if h : mtu = 0 ∨ e = U64 - 1 then none
  else
    let n := min (e - b + 1) mtu
    match pieces mtu (b + n) e with
    | none => none
    | some ps => some ((b, n) :: ps)
termination_by e + 1 - b
decreasing_by omega

/-- The body of the inner loop of `ResendDataFromReport`, LtpSessionSender.cpp:681-705. -/
def queuePiece (cfg : Cfg) (serial : Nat) (lastFragment : Bool) (e : Nat) (st : State)
    (p : Nat × Nat) : State :=
  if lastFragment ∧ p.1 + p.2 = e + 1 then
    let flags := if p.2 + p.1 = cfg.red then (if cfg.red = cfg.block.length then 3 else 2) else 1
    { st with
      nextCsn := (st.nextCsn + 1) % U64
      resend := st.resend ++ [⟨p.1, p.2, st.nextCsn, serial, flags, 1⟩] }
  else { st with resend := st.resend ++ [⟨p.1, p.2, 0, serial, 0, 1⟩] }

/-- `ResendDataFromReport`, LtpSessionSender.cpp:671-708. -/
def resendData (cfg : Cfg) (serial : Nat) : State → List Frag → Option State
  | st, [] => some st
  | st, f :: fs =>
    match pieces cfg.mtu f.b f.e with
    | none => none
    | some ps => resendData cfg serial (ps.foldl (queuePiece cfg serial fs.isEmpty f.e) st) fs

/-- `data_fragment_unique_overlapping_t::operator<`, FragmentSet.cpp:80-85. -/
def ltUnique (x y : Frag) : Bool := if x.b = y.b then x.e < y.e else x.b < y.b

/-- `std::map::emplace` with that order. -/
def addPending (p : Frag × Nat) : List (Frag × Nat) → List (Frag × Nat)
  | [] => [p]
  | q :: qs =>
    if ltUnique p.1 q.1 then p :: q :: qs
    else if ltUnique q.1 p.1 then q :: addPending p qs
    else q :: qs

/-- What a report with new claims leads to, LtpSessionSender.cpp:587-662: retransmission now, or after a
delay. -/
def scheduleResend (cfg : Cfg) (st : State) (serial : Nat) (bounds : Frag) : Option State :=
  let gaps := boundsMinusFragments bounds st.acked
  if !cfg.deferral then resendData cfg serial st gaps
  else
    match st.pending with
    | [] =>
      if gaps = [] then some st
      else some { st with pending := [(bounds, serial)], largestEnd := bounds.e }
    | _ :: _ =>
      let largest := max st.largestEnd bounds.e
      let ps := addPending (bounds, serial) st.pending
      match ps with
      | [] => none
      | p :: _ =>
        if containsEntirely st.acked ⟨p.1.b, largest⟩ then
          some { st with pending := [], largestEnd := largest }
        else some { st with pending := ps, largestEnd := largest }

/-- Completion and retransmission after a report with new claims, LtpSessionSender.cpp:531-663. -/
def newClaims (cfg : Cfg) (st : State) (serial : Nat) (r : Report) : Option (State × List Eff) :=
  let st := { st with allRed := st.allRed || redAcked cfg st.acked }
  let d := if st.index = cfg.block.length ∧ st.allRed then notifyDelete st false .reserved
    else (st, [])
  match scheduleResend cfg d.1 serial ⟨r.lower, sub64 r.upper 1⟩ with
  | none => none
  | some st => some (st, d.2)

/-- `ReportSegmentReceivedCallback`, LtpSessionSender.cpp:489-669. -/
def reportSegment (cfg : Cfg) (st : State) (serial checkpoint : Nat) (r : Report) :
    Option (State × List Eff) :=
  let st := { st with acks := st.acks ++ [serial] }
  let res :=
    if serial ∈ st.seen then some (st, [])
    else
      let a := addReport st.acked r
      let st := { st with
        seen := serial :: st.seen
        timers := if checkpoint ≠ 0 then st.timers.filter (fun t => t.1 ≠ checkpoint) else st.timers
        acked := a.1 }
      if a.2 then newClaims cfg st serial r else some (st, [])
  match res with
  | none => none
  | some (st, effs) => some (st, effs ++ if st.didNotify then [] else [.producible])

/-- `LtpCheckpointTimerExpiredCallback`, LtpSessionSender.cpp:126-188; the timer manager has removed the
timer. The retry count is a `uint32_t` in the code. -/
def checkpointExpired (cfg : Cfg) (st : State) (checkpoint : Nat) : State × List Eff :=
  match st.timers.find? (fun t => t.1 == checkpoint) with
  | none => (st, [])
  | some (_, f) =>
    let st := { st with timers := st.timers.filter fun t => t.1 ≠ checkpoint }
    if f.retry ≤ cfg.maxRetries then
      if f.flags = 1 ∧ containsEntirely st.acked ⟨f.offset, sub64 (add64 f.offset f.length) 1⟩ then
        (st, [])
      else ({ st with resend := st.resend ++ [{ f with retry := f.retry + 1 }] }, [.producible])
    else notifyDelete st true .rlexc

/-- The loop of `LtpDelaySendDataSegmentsTimerExpiredCallback`, LtpSessionSender.cpp:200-204. -/
def resendAll (cfg : Cfg) : State → List (Nat × List Frag) → Option State
  | st, [] => some st
  | st, (serial, gaps) :: rest =>
    match resendData cfg serial st gaps with
    | none => none
    | some st => resendAll cfg st rest

/-- `LtpDelaySendDataSegmentsTimerExpiredCallback`, LtpSessionSender.cpp:190-214. -/
def delayExpired (cfg : Cfg) (st : State) : Option (State × List Eff) :=
  match st.pending with
  | [] => some (st, [])
  | _ :: _ =>
    match resendAll cfg st (reduce st.pending st.acked) with
    | none => none
    | some st =>
      some ({ st with pending := [] }, if st.didNotify then [] else [.producible])

/-- What can happen to a session. -/
inductive Event where
  | first
  | next
  | report (serial checkpoint : Nat) (r : Report)
  | checkpointExpired (checkpoint : Nat)
  | delayExpired
deriving DecidableEq, Repr

/-- One event. -/
def step (cfg : Cfg) (st : State) : Event → Option (State × List Eff)
  | .first => firstPass cfg st
  | .next => nextCritical cfg st
  | .report serial checkpoint r => reportSegment cfg st serial checkpoint r
  | .checkpointExpired checkpoint => some (checkpointExpired cfg st checkpoint)
  | .delayExpired => delayExpired cfg st

/-- A history of events. -/
def run (cfg : Cfg) : State → List Event → Option (State × List Eff)
  | st, [] => some (st, [])
  | st, e :: es =>
    match step cfg st e with
    | none => none
    | some (st, effs) =>
      match run cfg st es with
      | none => none
      | some (st, effs') => some (st, effs ++ effs')

end Hdtn.LtpSender
