import Verif.LtpReport.Model

/-!
Model of one receiving session of the LTP engine, `common/ltp/src/LtpSessionReceiver.cpp`, with
its data kept in memory (`m_memoryInFilesPtrRef` null; the disk variant is not modelled).

A session reacts to events: an arriving data segment, an arriving report acknowledgement, the expiry
of one of its timers, or the engine asking for the next packet. Each reaction gives a new state and
the calls made to the outside. Undefined behaviour (a copy outside a buffer or from a null pointer,
use of an erased iterator, report fields that were never set) is the outcome `none`.

Not modelled: timestamps, statistics counters, log messages and the recycling of containers. The
timer managers are shared between sessions in the code; here are the timers of this session only.
-/

namespace Hdtn.LtpReceiver
open Hdtn.FragmentSet Hdtn.LtpReport

/-- The engine's settings a session uses, LtpSessionReceiver.h (`LtpSessionReceiverCommonData`).
`deferral` says that the delay before reports with gaps is not `not_a_date_time`. -/
structure Cfg where
  maxClaims : Nat
  maxRedRx : Nat
  maxRetries : Nat
  deferral : Bool
deriving DecidableEq, Repr

/-- A data segment as handed over by the parser: type flags 0 to 7, `Ltp::data_segment_metadata_t`
and the client data. `checkpoint` is the checkpoint and report serial number, if the pointers are not
null; `data` is `none` when the data pointer is null. -/
structure Seg where
  flags : Nat
  service : Nat
  offset : Nat
  length : Nat
  checkpoint : Option (Nat × Nat)
  data : Option Bytes
deriving DecidableEq, Repr

/-- `CANCEL_SEGMENT_REASON_CODES`, Ltp.h, as far as a receiver uses them. -/
inductive Reason where
  | reserved | rlexc | miscolored | systemCancelled
deriving DecidableEq, Repr

/-- What a session does to the outside: hand the red part or a green segment to the client, ask the
engine to delete it, tell the engine there is something to send, or send a report segment. -/
inductive Eff where
  | red (data : Bytes) (length service : Nat) (endOfBlock : Bool)
  | green (data : Bytes) (offset service : Nat) (endOfBlock : Bool)
  | delete (cancelled : Bool) (reason : Reason)
  | producible
  | send (serial checkpoint : Nat) (report : Report)
deriving DecidableEq, Repr

/-- A report waiting for its gaps to be filled: `rs_pending_map_t` entries. -/
structure Pending where
  range : Frag
  checkpoint : Nat
  secondary : Bool
deriving DecidableEq, Repr

/-- The fields of `LtpSessionReceiver`. Sets and maps are lists; `pending` is in map order.
`sent` is `m_mapAllReportSegmentsSent` as (serial number, (checkpoint serial number, report)),
`queue` is `m_reportsToSendFlistQueue` as (serial number, retry count), `rsnTimers` the running report
timers with their retry count, `delayTimers` the running delay timers: checkpoint serial number and
the pending entry their iterator points to. -/
structure State where
  nextRsn : Nat
  lengthOfRed : Nat
  lowestGreen : Nat
  curRed : Nat
  data : Bytes
  frags : List Frag
  checkpoints : List Nat
  sent : List (Nat × Nat × Report)
  lastPrimary : Option Nat
  queue : List (Nat × Nat)
  rsnTimers : List (Nat × Nat)
  pending : List Pending
  delayTimers : List (Nat × Frag)
  didRed : Bool
  didNotify : Bool
  eob : Bool
  eobRed : Bool
deriving DecidableEq, Repr

/-- The constructor, LtpSessionReceiver.cpp:79-124. -/
def init (randomSerial : Nat) : State where
  nextRsn := randomSerial
  lengthOfRed := U64 - 1
  lowestGreen := U64 - 1
  curRed := 0
  data := []
  frags := []
  checkpoints := []
  sent := []
  lastPrimary := none
  queue := []
  rsnTimers := []
  pending := []
  delayTimers := []
  didRed := false
  didNotify := false
  eob := false
  eobRed := false

/-- The `if (!m_didNotifyForDeletion)` blocks, e.g. LtpSessionReceiver.cpp:409-412. -/
def notifyDelete (st : State) (cancelled : Bool) (reason : Reason) : State × List Eff :=
  if st.didNotify then (st, []) else ({ st with didNotify := true }, [.delete cancelled reason])

/-- One report of the loop in `HandleGenerateAndSendReportSegment`, LtpSessionReceiver.cpp:790-823.
`emplace_hint` leaves the map alone if the serial number is taken. -/
def issueOne (checkpoint : Nat) (secondary : Bool) (st : State) (r : Report) : State :=
  let rsn := st.nextRsn
  { st with
    nextRsn := (rsn + 1) % U64
    sent := if st.sent.any (fun e => e.1 == rsn) then st.sent else st.sent ++ [(rsn, checkpoint, r)]
    lastPrimary := if secondary then st.lastPrimary else some rsn
    queue := st.queue ++ [(rsn, 1)] }

/-- `HandleGenerateAndSendReportSegment`, LtpSessionReceiver.cpp:757-824. Where
`PopulateReportSegment` or `SplitReportSegment` fails, the code goes on with whatever the reused
vector held: `none`. -/
def issue (cfg : Cfg) (st : State) (checkpoint lower upper : Nat) (secondary : Bool) :
    Option (State × List Eff) :=
  match populate st.frags lower upper with
  | none => none
  | some r =>
    if r.claims.length > cfg.maxClaims then
      match split r cfg.maxClaims with
      | .ok pieces =>
        some (pieces.foldl (issueOne checkpoint secondary) st, pieces.map fun _ => Eff.producible)
      | _ => none
    else some (issueOne checkpoint secondary st r, [.producible])

/-- `m_dataReceivedRed.resize`. -/
def resize (d : Bytes) (n : Nat) : Bytes :=
  if n ≤ d.length then d.take n else d ++ List.replicate (n - d.length) 0

/-- `memcpy(dst.data() + offset, src, length)`: `none` if it would read or write outside. -/
def memcpyTo (dst : Bytes) (offset : Nat) (src : Option Bytes) (length : Nat) : Option Bytes :=
  match src with
  | none => none
  | some s =>
    if s.length < length ∨ dst.length < offset + length then none
    else some (dst.take offset ++ s.take length ++ dst.drop (offset + length))

/-- `std::map::find` on the pending reports with a one-byte key, LtpSessionReceiver.cpp:474-476. -/
def findPending (ps : List Pending) (key : Frag) : Option Pending :=
  match ps.dropWhile fun p => p.range.ltAbut key with
  | [] => none
  | p :: _ => if key.ltAbut p.range then none else some p

/-- `std::map::emplace` on the pending reports, LtpSessionReceiver.cpp:626-632: `none` if there is
an overlapping entry. -/
def insertPending (ps : List Pending) (p : Pending) : Option (List Pending) :=
  match ps.dropWhile fun q => q.range.ltAbut p.range with
  | [] => some (ps ++ [p])
  | q :: _ =>
    if p.range.ltAbut q.range then
      some (ps.takeWhile (fun q => q.range.ltAbut p.range) ++
        p :: ps.dropWhile fun q => q.range.ltAbut p.range)
    else none

/-- `map::erase(it)`. -/
def erasePending (ps : List Pending) (range : Frag) : List Pending :=
  ps.filter fun p => p.range ≠ range

/-- Filling a gap may complete a waiting report, LtpSessionReceiver.cpp:468-506. The flag says that
the report just issued covers the whole red part. -/
def fillGaps (cfg : Cfg) (st : State) (offset : Nat) : Option (State × List Eff × Bool) :=
  match findPending st.pending ⟨offset, offset⟩ with
  | none => some (st, [], false)
  | some p =>
    if containsEntirely st.frags p.range then
      let lower := p.range.b
      let upper := (p.range.e + 1) % U64
      match issue cfg st p.checkpoint lower upper p.secondary with
      | none => none
      | some (st', effs) =>
        some ({ st' with
            delayTimers := st'.delayTimers.filter fun t => t.1 ≠ p.checkpoint
            pending := erasePending st'.pending p.range },
          effs, lower = 0 ∧ upper = st.lengthOfRed)
    else some (st, [], false)

/-- Storing the bytes of a red segment, LtpSessionReceiver.cpp:426-466 without the disk. -/
def store (cfg : Cfg) (st : State) (s : Seg) (neededResize : Bool) :
    Option (State × List Eff × Bool) :=
  let r := insertFragment st.frags ⟨s.offset, sub64 (add64 s.offset s.length) 1⟩
  let st := { st with frags := r.1 }
  if r.2 then
    let d := if neededResize then resize st.data st.curRed else st.data
    match memcpyTo d s.offset s.data s.length with
    | none => none
    | some d =>
      let st := { st with data := d }
      if neededResize then some (st, [], false) else fillGaps cfg st s.offset
  else some (st, [], false)

/-- The scope's lower bound of the report a new checkpoint asks for,
LtpSessionReceiver.cpp:541-581. -/
def lowerBoundFor (st : State) (reportSerial : Nat) : Nat :=
  if reportSerial ≠ 0 then
    match st.sent.find? (fun e => e.1 == reportSerial) with
    | some (_, _, r) => r.lower
    | none => 0
  else
    let lower := match st.lastPrimary with
      | none => 0
      | some rsn =>
        match st.sent.find? (fun e => e.1 == rsn) with
        | some (_, _, r) => r.upper
        | none => 0
    match st.pending.reverse.find? (fun p => !p.secondary) with
    | none => lower
    | some p => max lower ((p.range.e + 1) % U64)

/-- Handling of a checkpoint, LtpSessionReceiver.cpp:516-656. The flag is false where the function
returns. -/
def handleCheckpoint (cfg : Cfg) (st : State) (checkpoint : Option (Nat × Nat)) (upper : Nat) :
    Option (State × List Eff × Bool) :=
  match checkpoint with
  | none => some (st, [], false)
  | some (csn, rsn) =>
    if csn ∈ st.checkpoints then some (st, [], false)
    else
      let st := { st with checkpoints := csn :: st.checkpoints }
      let lower := lowerBoundFor st rsn
      if lower ≥ upper then some (st, [], true)
      else if !cfg.deferral ∨ containsEntirely st.frags ⟨lower, upper - 1⟩ then
        match issue cfg st csn lower upper (rsn ≠ 0) with
        | none => none
        | some (st, effs) => some (st, effs, true)
      else
        match insertPending st.pending ⟨⟨lower, upper - 1⟩, csn, rsn ≠ 0⟩ with
        | none => some (st, [], true)
        | some ps =>
          some ({ st with
              pending := ps
              delayTimers := if st.delayTimers.any (fun t => t.1 == csn) then st.delayTimers
                else st.delayTimers ++ [(csn, ⟨lower, upper - 1⟩)] }, [], true)

/-- Delivery of the red part, LtpSessionReceiver.cpp:657-695. `reported` is
`rsWasJustNowSentWithFullRedBounds`. -/
def complete (cfg : Cfg) (st : State) (s : Seg) (reported : Bool) : Option (State × List Eff) :=
  if !st.didRed ∧ st.lengthOfRed ≠ U64 - 1 then
    match st.frags with
    | [f] =>
      if f.b = 0 ∧ f.e = sub64 st.lengthOfRed 1 then
        let answer := if s.flags = 0 ∧ !reported then issue cfg st 0 0 st.lengthOfRed false
          else some (st, [])
        match answer with
        | none => none
        | some (st, effs) =>
          some ({ st with didRed := true },
            effs ++ [.red st.data st.lengthOfRed s.service st.eobRed])
      else some (st, [])
    | _ => some (st, [])
  else some (st, [])

/-- A red data segment, LtpSessionReceiver.cpp:384-696 from `if (isRedData)` on. -/
def redSegment (cfg : Cfg) (st : State) (s : Seg) : Option (State × List Eff) :=
  let upper := add64 s.offset s.length
  let neededResize : Bool := st.curRed < upper
  let st := { st with curRed := if neededResize then upper else st.curRed }
  if st.curRed > st.lowestGreen then some (notifyDelete st true .miscolored)
  else if st.didRed then some (st, [])
  else if st.curRed > cfg.maxRedRx then some (notifyDelete st true .systemCancelled)
  else
    match store cfg st s neededResize with
    | none => none
    | some (st, effs1, reported) =>
      let st := { st with lengthOfRed := if s.flags &&& 2 ≠ 0 then upper else st.lengthOfRed }
      let cp := if s.flags ≠ 0 then handleCheckpoint cfg st s.checkpoint upper
        else some (st, [], true)
      match cp with
      | none => none
      | some (st, effs2, false) => some (st, effs1 ++ effs2)
      | some (st, effs2, true) =>
        match complete cfg st s reported with
        | none => none
        | some (st, effs3) => some (st, effs1 ++ effs2 ++ effs3)

/-- A green data segment, LtpSessionReceiver.cpp:697-753. The vector passed on and the copy of
`length` bytes are taken to be the same bytes. -/
def greenSegment (st : State) (s : Seg) : Option (State × List Eff) :=
  let st := { st with lowestGreen := min s.offset st.lowestGreen }
  if st.curRed > st.lowestGreen then some (notifyDelete st true .miscolored)
  else
    match s.data with
    | none => none
    | some d =>
      if d.length < s.length then none
      else
        let eob : Bool := s.flags &&& 3 = 3
        let e := [Eff.green (d.take s.length) s.offset s.service eob]
        if eob ∧ ((st.lengthOfRed = U64 - 1 ∧ st.frags = []) ∨ st.didRed) then
          let r := notifyDelete st false .reserved
          some (r.1, e ++ r.2)
        else some (st, e)

/-- `DataSegmentReceivedCallback`, LtpSessionReceiver.cpp:364-755. -/
def dataSegment (cfg : Cfg) (st : State) (s : Seg) : Option (State × List Eff) :=
  let red : Bool := s.flags ≤ 3
  let st := if s.flags &&& 3 = 3 then { st with eob := true, eobRed := red } else st
  if red then redSegment cfg st s else greenSegment st s

/-- `LtpDelaySendReportSegmentTimerExpiredCallback`, LtpSessionReceiver.cpp:182-201; the timer
manager has removed the timer. The entry the timer points to must still be there. -/
def delayExpired (cfg : Cfg) (st : State) (checkpoint : Nat) : Option (State × List Eff) :=
  match st.delayTimers.find? (fun t => t.1 == checkpoint) with
  | none => some (st, [])
  | some (_, range) =>
    match st.pending.find? (fun p => p.range == range) with
    | none => none
    | some p =>
      match issue cfg { st with delayTimers := st.delayTimers.filter fun t => t.1 ≠ checkpoint }
          p.checkpoint p.range.b ((p.range.e + 1) % U64) p.secondary with
      | none => none
      | some (st, effs) => some ({ st with pending := erasePending st.pending range }, effs)

/-- `LtpReportSegmentTimerExpiredCallback`, LtpSessionReceiver.cpp:203-258; the timer manager has
removed the timer. -/
def reportExpired (cfg : Cfg) (st : State) (serial : Nat) : State × List Eff :=
  match st.rsnTimers.find? (fun t => t.1 == serial) with
  | none => (st, [])
  | some (_, retry) =>
    let st := { st with rsnTimers := st.rsnTimers.filter fun t => t.1 ≠ serial }
    if retry ≤ cfg.maxRetries then
      ({ st with queue := st.queue ++ [(serial, retry + 1)] }, [.producible])
    else notifyDelete st true .rlexc

/-- `NextDataToSend`, LtpSessionReceiver.cpp:260-309. The retry count is a `uint32_t` in the code. -/
def nextDataToSend (st : State) : Option (State × List Eff) :=
  match st.queue with
  | [] => some (st, [])
  | (serial, retry) :: rest =>
    match st.sent.find? (fun e => e.1 == serial) with
    | none => none
    | some (_, checkpoint, r) =>
      some ({ st with
          queue := rest
          rsnTimers := if st.rsnTimers.any (fun t => t.1 == serial) then st.rsnTimers
            else (serial, retry) :: st.rsnTimers },
        [.send serial checkpoint r])

/-- `ReportAcknowledgementSegmentReceivedCallback`, LtpSessionReceiver.cpp:312-361. -/
def reportAck (st : State) (serial : Nat) : State × List Eff :=
  let st := { st with rsnTimers := st.rsnTimers.filter fun t => t.1 ≠ serial }
  if st.queue = [] ∧ st.rsnTimers = [] ∧ st.eob ∧ st.didRed then notifyDelete st false .reserved
  else (st, [])

/-- What can happen to a session. -/
inductive Event where
  | data (s : Seg)
  | ack (serial : Nat)
  | delayExpired (checkpoint : Nat)
  | reportExpired (serial : Nat)
  | next
deriving DecidableEq, Repr

/-- One event. -/
def step (cfg : Cfg) (st : State) : Event → Option (State × List Eff)
  | .data s => dataSegment cfg st s
  | .ack serial => some (reportAck st serial)
  | .delayExpired checkpoint => delayExpired cfg st checkpoint
  | .reportExpired serial => some (reportExpired cfg st serial)
  | .next => nextDataToSend st

/-- A history of events. -/
def run (cfg : Cfg) : State → List Event → Option (State × List Eff)
  | st, [] => some (st, [])
  | st, e :: es =>
    match step cfg st e with
    | none => none
    | some (st, effs) =>
      match run cfg st es with
      | none => none
      | some (st, effs') => some (st, effs ++ effs')

end Hdtn.LtpReceiver
