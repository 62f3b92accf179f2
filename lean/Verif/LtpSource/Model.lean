import Verif.Base

/-!
Model of `common/ltp/src/LtpBundleSource.cpp`: the limit of the number of bundles, the counts, and waiting at the end. Two threads take part: the user's, which calls
`Forward`, and the engine's, which calls back. Each access to a shared variable is a step of its own, in every interleaving; `m_activeSessionNumbersSet`, which both
threads use without a lock, is taken to be read and written at once. Of the engine there are the requests that were posted to it and its sending sessions (for
what it does with them see LtpSessions).
-/

namespace Hdtn.LtpSource

/-- How far a call of `Forward` is, with the size of the bundle. -/
inductive Pc
  /-- No call. -/
  | idle
  /-- `m_startingCount` was incremented; it was `old` before. -/
  | asked (size old : Nat)
  /-- The limit was not exceeded. -/
  | admitted (size : Nat)
  /-- The request was posted to the engine. -/
  | handed (size : Nat)
deriving DecidableEq, Repr

/-- The source: `M_BUNDLE_PIPELINE_LIMIT`, `m_startingCount`, `m_activeSessionNumbersSet`, `m_totalBundlesSent`, `m_totalBundlesAcked`, `m_totalBundlesFailedToSend`,
`m_totalBundleBytesSent`; what `Forward` returned, with the sizes; the requests posted to the engine, its sending sessions with their numbers, and whether its
thread is in `SessionStartCallback` between the two changes. `lost` are requests the engine gave up without a word. -/
structure Src where
  limit : Nat
  starting : Nat := 0
  active : List Nat := []
  sent : Nat := 0
  acked : Nat := 0
  failed : Nat := 0
  bytes : Nat := 0
  pc : Pc := .idle
  results : List (Nat × Bool) := []
  posted : List Nat := []
  sessions : List (Nat × Nat) := []
  releasing : Bool := false
  lost : List Nat := []
deriving DecidableEq, Repr

/-- `fetch_sub(1)` of `m_startingCount`, an `unsigned int`. -/
def dec (n : Nat) : Nat := (n + (U32 - 1)) % U32

/-- `Forward` is called: LtpBundleSource.cpp:131-137 and :162-168. -/
def Src.call (s : Src) (size : Nat) (ready : Bool) : Src :=
  match s.pc with
  | .idle =>
    if ready then { s with starting := (s.starting + 1) % U32, pc := .asked size s.starting }
    else { s with results := s.results ++ [(size, false)] }
  | _ => s

/-- The next step of `Forward`: the comparison with the limit, LtpBundleSource.cpp:138-142 and :169-173; the request, :146-154 and :175-183; the counts, :156-159 and :185-188. -/
def Src.next (s : Src) : Src :=
  match s.pc with
  | .idle => s
  | .asked size old =>
    if s.active.length + old > s.limit then
      { s with starting := dec s.starting, pc := .idle, results := s.results ++ [(size, false)] }
    else { s with pc := .admitted size }
  | .admitted size => { s with posted := s.posted ++ [size], pc := .handed size }
  | .handed size =>
    { s with sent := (s.sent + 1) % U64, bytes := (s.bytes + size) % U64, pc := .idle, results := s.results ++ [(size, true)] }

/-- The engine takes a request and starts a session with a number that no session has (`DoTransmissionRequest`, LtpEngine.cpp:874-911); first part of
`SessionStartCallback`, LtpBundleSource.cpp:202-209. -/
def Src.start (s : Src) (n : Nat) : Src :=
  if s.releasing = true ∨ n ∈ s.sessions.map Prod.fst then s
  else match s.posted with
    | [] => s
    | b :: bs =>
      { s with
        posted := bs
        sessions := s.sessions ++ [(n, b)]
        active := if n ∈ s.active then s.active else s.active ++ [n]
        releasing := true }

/-- Last part of `SessionStartCallback`, LtpBundleSource.cpp:210. -/
def Src.release (s : Src) : Src :=
  if s.releasing then { s with starting := dec s.starting, releasing := false } else s

/-- The engine gives up a request: there is no memory on the disk, or the write cannot be started (`TransmissionRequest`, LtpEngine.cpp:816-841), or another session has the number
(:900-903). Nobody is told. -/
def Src.drop (s : Src) : Src :=
  if s.releasing then s
  else match s.posted with
    | [] => s
    | b :: bs => { s with posted := bs, lost := s.lost ++ [b] }

/-- The engine starts a session to receive, LtpEngine.cpp:1460-1463, because of a data segment of the remote engine (with LTP over shared memory or a local stream such a segment
reaches the engine of an outduct: LtpIpcEngine.cpp:358-365, LtpEncapLocalStreamEngine.cpp:277-284). `SessionStartCallback` is called for it, LtpBundleSource.cpp:203-206 and :210. -/
def Src.foreign (s : Src) : Src :=
  if s.releasing then s else { s with starting := dec s.starting }

/-- A session of the engine ends and is removed; `TransmissionSessionCompletedCallback`, LtpBundleSource.cpp:212-226. -/
def Src.complete (s : Src) (n : Nat) : Src :=
  if s.releasing = true ∨ n ∉ s.sessions.map Prod.fst then s
  else
    let s : Src := { s with sessions := s.sessions.filter fun x => x.1 ≠ n }
    if n ∈ s.active then { s with active := s.active.filter fun x => x ≠ n, acked := (s.acked + 1) % U64 } else s

/-- The same with `TransmissionSessionCancelledCallback`, LtpBundleSource.cpp:230-245. -/
def Src.cancel (s : Src) (n : Nat) : Src :=
  if s.releasing = true ∨ n ∉ s.sessions.map Prod.fst then s
  else
    let s : Src := { s with sessions := s.sessions.filter fun x => x.1 ≠ n }
    if n ∈ s.active then { s with active := s.active.filter fun x => x ≠ n, failed := (s.failed + 1) % U64 } else s

/-- The steps of the two threads. -/
inductive Act
  | call (size : Nat) (ready : Bool)
  | next
  | start (n : Nat)
  | release
  | drop
  | foreign
  | complete (n : Nat)
  | cancel (n : Nat)
deriving DecidableEq, Repr

def Src.step (s : Src) : Act → Src
  | .call size ready => s.call size ready
  | .next => s.next
  | .start n => s.start n
  | .release => s.release
  | .drop => s.drop
  | .foreign => s.foreign
  | .complete n => s.complete n
  | .cancel n => s.cancel n

def Src.run (s : Src) (as : List Act) : Src := as.foldl Src.step s

/-- `GetTotalBundlesUnacked`, LtpBundleSource.cpp:111-119. -/
def Src.unacked (s : Src) : Nat := (s.sent + (U64 - (s.acked + s.failed) % U64)) % U64

/-- The loop of `Stop`, LtpBundleSource.cpp:70-85; the list holds what `GetTotalBundlesUnacked` returns each time it is asked. `none`: still waiting; `true`: all
bundles were acknowledged; `false`: it gave up. -/
def stopLoop (attempt previous : Nat) : List Nat → Option Bool
  | [] => if attempt < 10 then none else some false
  | u :: us =>
    if attempt < 10 then
      if u ≠ 0 then
        if previous > u then stopLoop (0 + 1) u us else stopLoop (attempt + 1) previous us
      else some true
    else some false

/-- `Stop`, LtpBundleSource.cpp:63-85. -/
def stop (us : List Nat) : Option Bool := stopLoop 0 (U64 - 1) us

end Hdtn.LtpSource
