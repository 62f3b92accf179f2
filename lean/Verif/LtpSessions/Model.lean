import Verif.Base

/-!
# The LTP engine's bookkeeping of sessions

Models `common/ltp/src/LtpEngine.cpp`: the queues by which the engine remembers which session
has something to send or is to be deleted (`GetNextPacketToSend`, lines 619-790), the pipeline
of system calls (lines 421-575), the beginning of a session (lines 808-901), the two ways in
which a session is cancelled (lines 950-1000, 1045-1123), what sessions tell the engine
(lines 1230-1312), and how a bundle goes back to the user (lines 1744-1798); and of
`common/ltp/src/LtpSessionSender.cpp` the parts which call the engine (lines 130-191, 195-215,
217-328, 330-486, 489-675).

Simplifications.  A packet is a number: what is in it is the matter of other modules.  One
packet is sent by each system call (`M_MAX_UDP_PACKETS_TO_SEND_PER_SYSTEM_CALL` = 1) and there
is no limit of the rate.  Which packets a report or a timer adds is given with the event.
Receiving sessions are those kept in memory, which may be deleted at any time.  The callbacks
of the user are all set.  A block is read from the vector or from the message of ZeroMQ alike.
-/

namespace Hdtn.LtpSessions

/-- A session which sends: `LtpSessionSender` (LtpSessionSender.h, the members).  `user` is the
request it was made for; `green`: `M_LENGTH_OF_RED_PART` is 0; `held`: the block is in memory
and is not empty; `acks`: `m_nonDataToSendFlistQueue`; `resend`:
`m_resendFragmentsFlistQueue`; `first`: the packets of the first pass still to send; `done`:
`m_allRedDataReceivedByRemote`; `failed`: `m_isFailedSession`; `notified`:
`m_didNotifyForDeletion`; `told`: `m_calledCancelledOrCompletedCallback`.  `block`, all the packets
of the first pass, is there for the statements only. -/
structure Tx where
  user : Nat
  green : Bool
  held : Bool
  acks : List Nat := []
  resend : List Nat := []
  first : List Nat
  block : List Nat
  done : Bool := false
  failed : Bool := false
  notified : Bool := false
  told : Bool := false
deriving DecidableEq, Repr

/-- What the user is told.  `success` and `failed` are the calls of
`m_onSuccessfulBundleSendCallback` and of `m_onFailedBundle…SendCallback` (the bundle comes back);
`completed` and `stopped` those of `m_transmissionSessionCompletedCallback` and
`m_transmissionSessionCancelledCallback`.  For the statements, the first two carry the session
(its number and what it was at that time) for which they are made; with the disk, there is no
session to which success belongs. -/
inductive Call where
  | success (user : Nat) (session : Option (Nat × Tx))
  | failed (user : Nat) (session : Nat × Tx)
  | completed (user : Nat)
  | stopped (user : Nat)
deriving DecidableEq, Repr

/-- A packet handed over to be sent: of which session and which it is. -/
inductive Out where
  | critical (n p : Nat)
  | first (n p : Nat)
  | rx (r p : Nat)
  | cancel (p : Nat)
  | closed (p : Nat)
deriving DecidableEq, Repr

/-- A request waiting for its block to be written to the disk (the arguments bound in
LtpEngine.cpp:829-833). -/
structure Request where
  user : Nat
  green : Bool
  first : List Nat
deriving DecidableEq, Repr

/-- The engine.  `tx`: `m_mapSessionNumberToSessionSender`; `rx`: the packets which each receiving
session has to send (`m_mapSessionIdToSessionReceiver`); `qDelete`, `pending`, `qRxDelete`,
`cancels`, `closed`, `qCritical`, `qRx`, `qFirst`: the queues in the order of
`GetNextPacketToSend`; `queued`: `m_numQueuedSendSystemCallsAtomic`; `posted`: how many calls of
`TrySaturateSendPacketPipeline` are posted.  The rest is for the statements: `writes` are the
requests being written to the disk, `flight` the packets with the disk or the system, `sent`
all packets handed over, `calls` all calls of the user, `late` the packets of a first pass handed
over while something urgent waited. -/
structure Eng where
  tx : List (Nat × Tx) := []
  rx : List (Nat × List Nat) := []
  qDelete : List Nat := []
  pending : List Nat := []
  qRxDelete : List Nat := []
  cancels : List Nat := []
  closed : List Nat := []
  qCritical : List Nat := []
  qRx : List Nat := []
  qFirst : List Nat := []
  queued : Nat := 0
  posted : Nat := 0
  writes : List Request := []
  flight : Nat := 0
  sent : List Out := []
  calls : List Call := []
  late : List Out := []
deriving Repr

/-- The configuration: whether blocks are kept on the disk (`m_memoryInFilesPtr`),
`M_DISK_BUNDLE_ACK_CALLBACK_LIMIT`, `MAX_QUEUED_SEND_SYSTEM_CALLS` and
`MIN_QUEUED_SEND_SYSTEM_CALLS` (LtpEngine.cpp:26-27: 5 and 1). -/
structure Cfg where
  disk : Bool := false
  limit : Nat := 0
  max : Nat := 5
  min : Nat := 1
deriving Repr

/-- Looking a session up by its number (`find` of the maps). -/
def look {α} (l : List (Nat × α)) (n : Nat) : Option α :=
  match l.find? (fun x => x.1 == n) with
  | some x => some x.2
  | none => none

/-- Writing through the iterator found: the session with that number. -/
def put {α} (l : List (Nat × α)) (n : Nat) (a : α) : List (Nat × α) :=
  l.map fun x => if x.1 = n then (n, a) else x

/-- Erasing the session found. -/
def drop {α} (l : List (Nat × α)) (n : Nat) : List (Nat × α) :=
  l.filter fun x => x.1 ≠ n

/-- Models `NextTimeCriticalDataToSend` (LtpSessionSender.cpp:217-328): acknowledgements of
reports first; what is to be sent again is thrown away once all red data arrived. -/
def Tx.takeCritical (t : Tx) : Option (Nat × Tx) :=
  match t.acks with
  | a :: as => some (a, { t with acks := as })
  | [] =>
    if t.done then none
    else match t.resend with
      | p :: ps => some (p, { t with resend := ps })
      | [] => none

/-- Models `TryReturnTxSessionDataToUser` (LtpEngine.cpp:1744-1782): the block goes back if
there is one in memory. -/
def Eng.giveBack (s : Eng) (n : Nat) (t : Tx) : Eng :=
  if t.held then { s with calls := s.calls ++ [.failed t.user (n, t)] } else s

/-- Models `EraseTxSession` (LtpEngine.cpp:1784-1798); the counters and the deletion of the
block on the disk are left out. -/
def Eng.erase (s : Eng) (n : Nat) : Eng := { s with tx := drop s.tx n }

/-- Models the end of a session in `GetNextPacketToSend` (LtpEngine.cpp:628-642). -/
def Eng.close (c : Cfg) (s : Eng) (n : Nat) (t : Tx) : Eng :=
  let s : Eng :=
    if t.failed then s.giveBack n t
    else if c.disk then s
    else { s with calls := s.calls ++ [.success t.user (some (n, t))] }
  s.erase n

/-- Models `NotifyEngineThatThisSenderNeedsDeletedCallback` (LtpEngine.cpp:1230-1268) with the
flag the session sets just before (`m_didNotifyForDeletion`, and `m_isFailedSession` when it was
cancelled: LtpSessionSender.cpp:185-190); `t` is the session as it is then. -/
def Eng.finish (s : Eng) (n : Nat) (t : Tx) (cancelled : Bool) : Eng :=
  let call : List Call :=
    if t.told then [] else [if cancelled then .stopped t.user else .completed t.user]
  { s with
    tx := put s.tx n { t with notified := true, failed := t.failed || cancelled, told := true }
    cancels := if cancelled then s.cancels ++ [n] else s.cancels
    calls := s.calls ++ call
    qDelete := s.qDelete ++ [n]
    posted := s.posted + 1 }

/-- Models the first `while` of `GetNextPacketToSend` (LtpEngine.cpp:621-648): senders to
delete; one which still has acknowledgements or data to send again sends them first. -/
def deletes (c : Cfg) (s : Eng) : List Nat → Option Out × Eng
  | [] => (none, { s with qDelete := [] })
  | n :: q =>
    match look s.tx n with
    | none => deletes c s q
    | some t =>
      match t.takeCritical with
      | some (p, t') => (some (.critical n p), { s with tx := put s.tx n t', qDelete := n :: q })
      | none => deletes c (s.close c n t) q

/-- Models the second `while` (LtpEngine.cpp:651-657): with the disk, users are told of their
bundles while there are few sessions. -/
def tellPending (c : Cfg) (s : Eng) : List Nat → Eng
  | [] => { s with pending := [] }
  | u :: q =>
    if s.tx.length < c.limit then tellPending c { s with calls := s.calls ++ [.success u none] } q
    else { s with pending := u :: q }

/-- Models the `while` for receivers to delete (LtpEngine.cpp:675-693); the one before it, for
those which wait for the disk, has nothing to do in memory. -/
def rxDeletes (s : Eng) : List Nat → Option Out × Eng
  | [] => (none, { s with qRxDelete := [] })
  | r :: q =>
    match look s.rx r with
    | none => rxDeletes s q
    | some (p :: ps) => (some (.rx r p), { s with rx := put s.rx r ps, qRxDelete := r :: q })
    | some [] => rxDeletes { s with rx := drop s.rx r } q

/-- Models the `while` for senders with time-critical data (LtpEngine.cpp:733-749). -/
def criticals (s : Eng) : List Nat → Option Out × Eng
  | [] => (none, { s with qCritical := [] })
  | n :: q =>
    match look s.tx n with
    | none => criticals s q
    | some t =>
      match t.takeCritical with
      | some (p, t') => (some (.critical n p), { s with tx := put s.tx n t', qCritical := n :: q })
      | none => criticals s q

/-- Models the `while` for receivers with data (LtpEngine.cpp:751-767). -/
def rxSends (s : Eng) : List Nat → Option Out × Eng
  | [] => (none, { s with qRx := [] })
  | r :: q =>
    match look s.rx r with
    | some (p :: ps) => (some (.rx r p), { s with rx := put s.rx r ps, qRx := r :: q })
    | _ => rxSends s q

/-- Models the end of a packet of the first pass (LtpSessionSender.cpp:456-481): with the last
packet of the block the session asks to be deleted if nothing is red or all red data arrived. -/
def Eng.afterFirst (s : Eng) (n : Nat) (t : Tx) : Eng :=
  if t.first = [] ∧ (t.green ∨ t.done) ∧ t.notified = false then s.finish n t false
  else { s with tx := put s.tx n t }

/-- Models the last `while` (LtpEngine.cpp:771-787): senders in their first pass. -/
def firsts (s : Eng) : List Nat → Option Out × Eng
  | [] => (none, { s with qFirst := [] })
  | n :: q =>
    match look s.tx n with
    | none => firsts s q
    | some t =>
      match t.first with
      | p :: ps => (some (.first n p),
          ({ s with qFirst := n :: q } : Eng).afterFirst n { t with first := ps })
      | [] => firsts s q

/-- Models the part of `GetNextPacketToSend` (LtpEngine.cpp:695-789) after the deletions. -/
def Eng.nextLive (s : Eng) : Option Out × Eng :=
  match s.cancels with
  | x :: xs => (some (.cancel x), { s with cancels := xs })
  | [] =>
    match s.closed with
    | x :: xs => (some (.closed x), { s with closed := xs })
    | [] =>
      match criticals s s.qCritical with
      | (some o, s') => (some o, s')
      | (none, s1) =>
        match rxSends s1 s1.qRx with
        | (some o, s') => (some o, s')
        | (none, s2) => firsts s2 s2.qFirst

/-- Models `GetNextPacketToSend` (LtpEngine.cpp:619-790). -/
def Eng.next (c : Cfg) (s : Eng) : Option Out × Eng :=
  match deletes c s s.qDelete with
  | (some o, s') => (some o, s')
  | (none, s1) =>
    let s2 := tellPending c s1 s1.pending
    match rxDeletes s2 s2.qRxDelete with
    | (some o, s') => (some o, s')
    | (none, s3) => s3.nextLive

/-- For the statements: the session has something to send before any first pass. -/
def Tx.urgent (t : Tx) : Bool := !t.acks.isEmpty || (!t.done && !t.resend.isEmpty)

/-- For the statements: something is there to send before any first pass. -/
def Eng.urgent (s : Eng) : Bool :=
  !s.cancels.isEmpty || !s.closed.isEmpty || s.tx.any (fun x => x.2.urgent)
    || s.rx.any (fun x => !x.2.isEmpty)

/-- For the statements: a packet of a first pass. -/
def Out.isFirst : Out → Bool
  | .first _ _ => true
  | _ => false

/-- Models `TrySaturateSendPacketPipeline` and `TrySendPacketIfAvailable`
(LtpEngine.cpp:442-444, 453-575): packets are handed over while fewer than `max` system calls
are under way.  `k` bounds the calls, see `Eng.saturate`. -/
def Eng.fill (c : Cfg) : Nat → Eng → Eng
  | 0, s => s
  | k + 1, s =>
    match s.next c with
    | (none, s') => s'
    | (some o, s') => fill c k { s' with
        queued := s'.queued + 1, flight := s'.flight + 1, sent := s'.sent ++ [o]
        late := if o.isFirst && s.urgent then s'.late ++ [o] else s'.late }

/-- The loop ends after at most `max - queued` packets, for each adds one. -/
def Eng.saturate (c : Cfg) (s : Eng) : Eng := s.fill c (c.max - s.queued)

/-- Models `DoTransmissionRequest` (LtpEngine.cpp:874-912): `n` is the random number of the
session; if a session has it already, the request is dropped. -/
def Eng.start (c : Cfg) (s : Eng) (n : Nat) (r : Request) : Eng :=
  match look s.tx n with
  | some _ => s
  | none =>
    let t : Tx := { user := r.user, green := r.green, first := r.first, block := r.first,
                    held := !c.disk && !r.first.isEmpty }
    ({ s with tx := s.tx ++ [(n, t)], qFirst := s.qFirst ++ [n] } : Eng).saturate c

/-- Models `OnTransmissionRequestDataWrittenToDisk` (LtpEngine.cpp:849-873). -/
def Eng.written (c : Cfg) (s : Eng) (n : Nat) (r : Request) : Eng :=
  let s := s.start c n r
  if s.tx.length < c.limit then { s with calls := s.calls ++ [.success r.user none] }
  else { s with pending := s.pending ++ [r.user] }

/-- What happens to the engine.  `request n r ok`: the user asks to send (`ok`: with the disk, a
block could be allocated and its write begun); `written i n`: the write of the `i`-th of the
waiting requests ended; `report n ack fresh all extra`: a report for session `n` came in (`ack`:
its acknowledgement, `fresh`: it claims something new, `all`: now all red data are claimed,
`extra`: what is to be sent again); `checkpoint n p retry skip`: a checkpoint's timer expired
(`retry`: it may be sent again, `skip`: it need not); `delayed n extra`: the timer of delayed
resending expired; `cancelIn n p`: a cancel segment for `n` came from the receiver (`p`: its
acknowledgement); `cancel n`: the user cancels `n`; `cancelTimer x`: a cancel segment is to be
sent again; `rxOpen r`, `rxMake r ps`, `rxEnd r cancelled`, `rxCancelIn r p`: a receiving
session begins, has packets to send, asks to be deleted, is cancelled by the sender; `posted`: a
posted `TrySaturateSendPacketPipeline` runs; `completed`: a system call ended; `readFailed`: the
read of a packet's data from the disk failed; `housekeeping`: the timer of every second. -/
inductive Ev where
  | request (n : Nat) (r : Request) (ok : Bool)
  | written (i n : Nat)
  | report (n ack : Nat) (fresh all : Bool) (extra : List Nat)
  | checkpoint (n p : Nat) (retry skip : Bool)
  | delayed (n : Nat) (extra : List Nat)
  | cancelIn (n p : Nat)
  | cancel (n : Nat)
  | cancelTimer (x : Nat)
  | rxOpen (r : Nat)
  | rxMake (r : Nat) (ps : List Nat)
  | rxEnd (r : Nat) (cancelled : Bool)
  | rxCancelIn (r p : Nat)
  | posted
  | completed
  | readFailed
  | housekeeping
deriving DecidableEq, Repr

/-- Models `NotifyEngineThatThisSenderHasProducibleData` (LtpEngine.cpp:1270-1273). -/
def Eng.producible (s : Eng) (n : Nat) : Eng :=
  { s with qCritical := s.qCritical ++ [n], posted := s.posted + 1 }

/-- Models `ReportSegmentReceivedCallback` of the session (LtpSessionSender.cpp:489-675). -/
def Eng.reportIn (s : Eng) (n : Nat) (t : Tx) (ack : Nat) (fresh all : Bool)
    (extra : List Nat) : Eng :=
  let t : Tx := { t with acks := t.acks ++ [ack] }
  if fresh then
    let t : Tx := { t with done := t.done || all, resend := t.resend ++ extra }
    if t.first = [] ∧ t.done = true ∧ t.notified = false then s.finish n t false
    else
      let s : Eng := { s with tx := put s.tx n t }
      if t.notified then s else s.producible n
  else
    let s : Eng := { s with tx := put s.tx n t }
    if t.notified then s else s.producible n

/-- Models `LtpCheckpointTimerExpiredCallback` of the session (LtpSessionSender.cpp:130-191). -/
def Eng.checkpoint (s : Eng) (n : Nat) (t : Tx) (p : Nat) (retry skip : Bool) : Eng :=
  if retry then
    if skip then s
    else
      let t : Tx := { t with resend := t.resend ++ [p] }
      ({ s with tx := put s.tx n t } : Eng).producible n
  else if t.notified then s
  else s.finish n t true

/-- Models one event; see `Ev` and, in turn, LtpEngine.cpp:812-847, 849-873, 1350-1390 (reports),
LtpSessionSender.cpp:130-191 and 195-215 (timers), LtpEngine.cpp:1080-1123, 950-1003, 1188-1200,
1314-1480 (receivers), 441, 421-433, 577-590, 1599-1690. -/
def Eng.step (c : Cfg) (s : Eng) : Ev → Eng
  | .request n r ok =>
    if c.disk then (if ok then { s with writes := s.writes ++ [r] } else s)
    else s.start c n r
  | .written i n =>
    match s.writes[i]? with
    | some r => ({ s with writes := s.writes.eraseIdx i } : Eng).written c n r
    | none => s
  | .report n ack fresh all extra =>
    match look s.tx n with
    | some t => (s.reportIn n t ack fresh all extra).saturate c
    | none => ({ s with closed := s.closed ++ [ack] } : Eng).saturate c
  | .checkpoint n p retry skip =>
    match look s.tx n with
    | some t => s.checkpoint n t p retry skip
    | none => s
  | .delayed n extra =>
    match look s.tx n with
    | some t =>
      let s : Eng := { s with tx := put s.tx n { t with resend := t.resend ++ extra } }
      if t.notified then s else s.producible n
    | none => s
  | .cancelIn n p =>
    match look s.tx n with
    | some t =>
      let s : Eng := if t.told then s else { s with calls := s.calls ++ [.stopped t.user] }
      let s : Eng := (s.giveBack n t).erase n
      ({ s with closed := s.closed ++ [p] } : Eng).saturate c
    | none => ({ s with closed := s.closed ++ [p] } : Eng).saturate c
  | .cancel n =>
    match look s.tx n with
    | some t =>
      let s : Eng := (s.giveBack n t).erase n
      ({ s with cancels := s.cancels ++ [n] } : Eng).saturate c
    | none => s
  | .cancelTimer x => ({ s with cancels := s.cancels ++ [x] } : Eng).saturate c
  | .rxOpen r =>
    match look s.rx r with
    | some _ => s
    | none => { s with rx := s.rx ++ [(r, [])] }
  | .rxMake r ps =>
    match look s.rx r with
    | some qs =>
      { s with rx := put s.rx r (qs ++ ps), qRx := s.qRx ++ [r], posted := s.posted + 1 }
    | none => s
  | .rxEnd r cancelled =>
    { s with qRxDelete := s.qRxDelete ++ [r], posted := s.posted + 1,
             cancels := if cancelled then s.cancels ++ [r] else s.cancels }
  | .rxCancelIn r p =>
    ({ s with rx := drop s.rx r, closed := s.closed ++ [p] } : Eng).saturate c
  | .posted =>
    if s.posted = 0 then s else ({ s with posted := s.posted - 1 } : Eng).saturate c
  | .completed =>
    if s.flight = 0 then s
    else
      let s' : Eng := { s with flight := s.flight - 1, queued := s.queued - 1 }
      if s.queued ≤ c.min + 1 then { s' with posted := s.posted + 1 } else s'
  | .readFailed => if c.disk ∧ s.flight ≠ 0 then { s with flight := s.flight - 1 } else s
  | .housekeeping => s.saturate c

/-- A whole history from the engine at its start. -/
def Eng.run (c : Cfg) (es : List Ev) : Eng := es.foldl (Eng.step c) {}

end Hdtn.LtpSessions
