import Verif.TcpclV4.Model
import Verif.Uri.Model

/-!
The TCP convergence layer link, version 4 (common/tcpcl/src/TcpclV4BidirectionalLink.cpp, below Link.cpp):
what an entity does with the messages its parser (TcpclV4/Model) reports, and `BaseClass_Forward`. Then two
entities on one connection.

Not modelled: TLS (a connection is followed up to the decision to upgrade it), reconnecting, timers (a keep-alive
may be sent and a session may be terminated at any time), failing writes, the counters of fragments and
bytes, logging. The passive entity handles received data in a thread of its own
(TcpclV4BundleSink.cpp:285-324); a session initialisation it sends is put into the queue of the sender without
synchronisation with the thread of the socket (Link.cpp:929, :932, :935), which is taken here as if it were
synchronised.
-/

namespace Hdtn.TcpclV4Link

open TcpclV4 (Event Rx)

/-- `tcpclv4_ack_t`, TcpclV4.h:182-198. -/
structure Ack where
  isStart : Bool
  isEnd : Bool
  id : Nat
  total : Nat
deriving DecidableEq, Repr

/-- The constructor arguments, Link.cpp:23-58, and two things of the environment: `room` is the largest
number of elements that vectors can be resized to, and `leaves` says what the callback for a bundle leaves
in the vector it is given (it may move the contents away). -/
structure Cfg where
  active : Bool
  keep : Nat
  maxUnacked : Nat
  segMru : Nat
  xferMru : Nat
  nodeId : Nat
  expected : Bytes
  tryTls : Bool
  tlsRequired : Bool
  room : Nat
  leaves : Bytes → Bytes

/-- The expected name of the peer, Link.cpp:107-122: when the configured one cannot be parsed, the member
stays empty. -/
def expectedEid (cfg : Cfg) : Bytes :=
  if cfg.expected = [] then []
  else
    match Uri.parseUri false cfg.expected with
    | none => []
    | some (node, _) => Uri.getIpnUriString node 0

/-- `m_base_segmentsToAckCbPtr` with the two vectors it gives indices into: the number of elements it can
hold, and the acknowledgements that are expected with the user data (only written for the last segment of a
bundle, Link.cpp:776-778). That the buffer is a queue is C33. -/
structure Ring where
  cap : Nat
  items : List (Ack × Bytes)
deriving DecidableEq, Repr

/-- The members of the link. -/
structure Link where
  rx : Rx
  ready : Bool
  shutdownCalled : Bool
  usingTls : Bool
  concat : Bytes
  nextId : Nat
  remoteSeg : Nat
  remoteXfer : Nat
  ring : Option Ring
  keep : Nat
  remoteNode : Nat
  sent : Nat
  acked : Nat
deriving DecidableEq, Repr

/-- A new link, Link.cpp:44-88. -/
def newLink : Link where
  rx := TcpclV4.start
  ready := false
  shutdownCalled := false
  usingTls := false
  concat := []
  nextId := 0
  remoteSeg := 0
  remoteXfer := 0
  ring := none
  keep := 0
  remoteNode := 0
  sent := 0
  acked := 0

/-- What the link does: `post` hands a message to the thread of the socket (`AsyncSend_ThreadSafe`), `write`
puts it into the queue of that thread at once (`AsyncSend_NotThreadSafe`); callbacks; `shutdown` is
`BaseClass_DoTcpclShutdown`, which hands the termination to the thread of the socket, Link.cpp:446-448. -/
inductive Eff
  | post (message : Bytes)
  | write (message : Bytes)
  | deliver (bundle : Bytes)
  | success (user : Bytes)
  | shutdown (reason : UInt8) (isAck : Bool)
  | linkUp
deriving DecidableEq, Repr

/-- How the process can end. -/
inductive Crash
  | divisionByZero
  | nullPointer
  | outOfMemory
deriving DecidableEq, Repr

/-- `BaseClass_SendSessionInit`, Link.cpp:914-938; for the name of the entity see Link.cpp:49. -/
def sessInit (cfg : Cfg) : Bytes :=
  TcpclV4.genInit cfg.keep cfg.segMru cfg.xferMru (Uri.getIpnUriString cfg.nodeId 0) []

/-- `BaseClass_ContactHeaderCallback`, Link.cpp:853-912; `CONTACT_FAILURE` is 4. -/
def onContact (cfg : Cfg) (l : Link) (tls : Bool) : Link × List Eff :=
  let usingTls := cfg.tryTls && tls
  let l := { l with usingTls := usingTls }
  if cfg.tlsRequired && !usingTls then (l, [.shutdown 4 false])
  else if !cfg.active then (l, [.post (TcpclV4.genContact cfg.tryTls)])
  else if usingTls then (l, [])
  else (l, [.write (sessInit cfg)])

/-- The interval for keep-alives, Link.cpp:1050-1070. -/
def negotiate (mine theirs : Nat) : Nat :=
  if mine = 0 then 0
  else if theirs = 0 then 0
  else if mine > theirs then theirs
  else if mine < theirs then mine
  else mine

/-- `BaseClass_SessionInitCallback`, Link.cpp:959-1091. The arithmetic is that of `uint64_t`; the buffer takes
its size as `unsigned int`, and holds one element less (Link.cpp:1017). -/
def onInit (cfg : Cfg) (l : Link) (keep segMru xferMru : Nat) (node : Bytes) : Except Crash (Link × List Eff) :=
  match Uri.parseUri false node with
  | none => .ok (l, [.shutdown 4 false])
  | some (nodeId, service) =>
    if service ≠ some 0 then .ok (l, [.shutdown 4 false])
    else if expectedEid cfg ≠ [] ∧ node ≠ expectedEid cfg then .ok (l, [.shutdown 4 false])
    else
      let l := { l with remoteNode := nodeId, remoteSeg := segMru, remoteXfer := xferMru }
      if segMru = 0 then .ok (l, [])
      else
        let seg := if segMru > xferMru then xferMru else segMru
        if seg = 0 then .error .divisionByZero
        else
          let perBundle := (xferMru / seg + 1) % 2 ^ 64
          let size := (perBundle * cfg.maxUnacked % 2 ^ 64 + 10) % 2 ^ 64
          if cfg.room < size then .error .outOfMemory
          else
            let l := { l with
              remoteSeg := seg
              ring := some ⟨size % 2 ^ 32 - 1, []⟩
              keep := negotiate cfg.keep keep
              ready := true }
            .ok (l, (if cfg.active then [] else [.write (sessInit cfg)]) ++ [.linkUp])

/-- `BaseClass_DataSegmentCallback`, Link.cpp:213-313. The extensions are used for logging and for reserving
memory only. -/
def onData (cfg : Cfg) (l : Link) (contents : Bytes) (isStart isEnd : Bool) (id : Nat) : Link × List Eff :=
  if isStart && isEnd then
    (l, [.deliver contents, .post (TcpclV4.genAck isStart isEnd id contents.length)])
  else
    let concat := (if isStart then [] else l.concat) ++ contents
    let ack := Eff.post (TcpclV4.genAck isStart isEnd id concat.length)
    if isEnd then ({ l with concat := cfg.leaves concat }, [.deliver concat, ack])
    else ({ l with concat := concat }, [ack])

/-- `BaseClass_AckCallback`, Link.cpp:316-346. -/
def onAck (l : Link) (ack : Ack) : Except Crash (Link × List Eff) :=
  match l.ring with
  | none => .error .nullPointer
  | some ring =>
    match ring.items with
    | [] => .ok (l, [])
    | (head, user) :: items =>
      if head = ack then
        let l := { l with ring := some { ring with items := items } }
        if ack.isEnd then .ok ({ l with acked := l.acked + 1 }, [.success user]) else .ok (l, [])
      else .ok (l, [])

/-- The callbacks of the parser, Link.cpp:95-106. Refusals and rejections are only logged (Link.cpp:833-851), a
keep-alive only restarts a timer (:360-363), a termination is answered unless it is an answer (:424-444). -/
def handle (cfg : Cfg) (l : Link) : Event → Except Crash (Link × List Eff)
  | .contact tls => .ok (onContact cfg l tls)
  | .init keep segMru xferMru node _ => onInit cfg l keep segMru xferMru node
  | .data contents isStart isEnd id _ => .ok (onData cfg l contents isStart isEnd id)
  | .ack isStart isEnd id total => onAck l ⟨isStart, isEnd, id, total⟩
  | .reject _ _ => .ok (l, [])
  | .refusal _ _ => .ok (l, [])
  | .keepAlive => .ok (l, [])
  | .term reason isAck => .ok (l, if isAck then [] else [.shutdown reason true])

/-- The callbacks for a sequence of messages. -/
def handleAll (cfg : Cfg) : Link → List Event → Except Crash (Link × List Eff)
  | l, [] => .ok (l, [])
  | l, e :: es =>
    match handle cfg l e with
    | .error c => .error c
    | .ok (l, effs) =>
      match handleAll cfg l es with
      | .error c => .error c
      | .ok (l, effs') => .ok (l, effs ++ effs')

/-- Bytes arrive, e.g. TcpclV4BundleSource.cpp:230 and TcpclV4BundleSink.cpp:310. The limit of the parser is the
own transfer MRU (Link.cpp:91). The callbacks run while the parser goes through the bytes; they do not touch
the parser, so that they may as well run afterwards. -/
def recv (cfg : Cfg) (l : Link) (chunk : Bytes) : Except Crash (Link × List Eff) :=
  let t := TcpclV4.feed cfg.xferMru l.rx chunk
  handleAll cfg { l with rx := t.2 } t.1

/-- The queue takes another element, Link.cpp:769-779 and :803-807, :824-826. -/
def push (ring : Ring) (ack : Ack) (user : Bytes) : Option Ring :=
  if ring.items.length < ring.cap then some { ring with items := ring.items ++ [(ack, user)] } else none

/-- The loop that cuts a bundle into segments, Link.cpp:716-784: the messages, or nothing when the queue is
full; then what has been put into it stays there. `rest` are the bytes behind `index`. Every turn but the
last takes at least one byte, so that `fuel` is enough when it is the length of the bundle. -/
def fragment (seg id total : Nat) (user : Bytes) : Nat → Nat → Bytes → Ring → Ring × Option (List Bytes)
  | 0, _, _, ring => (ring, none)
  | fuel + 1, index, rest, ring =>
    let n := min (total - index) seg
    let isStart := index == 0
    let isEnd := n + index == total
    let header := if isStart then TcpclV4.genFirstHeader id n total else TcpclV4.genNextHeader isEnd id n
    match push ring ⟨isStart, isEnd, id, index + n⟩ (if isEnd then user else []) with
    | none => (ring, none)
    | some ring =>
      if isEnd then (ring, some [header ++ rest.take n])
      else
        match fragment seg id total user fuel (index + n) (rest.drop n) ring with
        | (ring, none) => (ring, none)
        | (ring, some messages) => (ring, some ((header ++ rest.take n) :: messages))

/-- `BaseClass_Forward`, Link.cpp:651-831: the messages that are handed to the sender one by one, or nothing
when the bundle is refused. Acknowledgements that arrive while the loop runs make room in the queue only earlier. -/
def forward (l : Link) (bundle user : Bytes) : Except Crash (Link × Option (List Bytes)) :=
  if !l.ready then .ok (l, none)
  else
    match l.ring with
    | none => .error .nullPointer
    | some ring =>
      let id := l.nextId
      let l := { l with sent := l.sent + 1, nextId := (l.nextId + 1) % 2 ^ 64 }
      if l.remoteSeg ≠ 0 ∧ bundle.length > l.remoteSeg then
        let (ring, messages) := fragment l.remoteSeg id bundle.length user bundle.length 0 bundle ring
        .ok ({ l with ring := some ring }, messages)
      else
        match push ring ⟨true, true, id, bundle.length⟩ user with
        | none => .ok (l, none)
        | some ring => .ok ({ l with ring := some ring }, some [TcpclV4.genWholeHeader id bundle.length ++ bundle])

/-- `BaseClass_DoHandleSocketShutdown`, Link.cpp:451-516, for a clean shutdown. -/
def doShutdown (l : Link) (reason : UInt8) (isAck : Bool) : Link × List Eff :=
  if l.shutdownCalled then (l, [])
  else ({ l with shutdownCalled := true, ready := false }, [.write (TcpclV4.genTerm reason isAck)])

/-! ### Two entities -/

/-- An entity with its connection: messages that `BaseClass_Forward` has yet to hand over (`outbox`), messages
in the queue of the thread of the socket (`posted`), the bytes written to the connection so far (`out`), the
number of bytes read from the connection (`read`), shutdowns that are handed over (`tasks`); and for the record
the bundles accepted by `BaseClass_Forward` with their user data, the bundles delivered to the application,
and the user data of the bundles it was told were sent. -/
structure Side where
  link : Link
  outbox : List Bytes
  posted : List Bytes
  out : Bytes
  read : Nat
  tasks : List (UInt8 × Bool)
  forwarded : List (Bytes × Bytes)
  delivered : List Bytes
  succeeded : List Bytes

/-- An entity before it has done anything. The active one has called `BaseClass_SendContactHeader`,
TcpclV4BundleSource.cpp:183. -/
def newSide (cfg : Cfg) : Side where
  link := newLink
  outbox := []
  posted := if cfg.active then [TcpclV4.genContact cfg.tryTls] else []
  out := []
  read := 0
  tasks := []
  forwarded := []
  delivered := []
  succeeded := []

/-- What an effect of the link does. -/
def apply (x : Side) : Eff → Side
  | .post m => { x with posted := x.posted ++ [m] }
  | .write m => { x with out := x.out ++ m }
  | .deliver b => { x with delivered := x.delivered ++ [b] }
  | .success u => { x with succeeded := x.succeeded ++ [u] }
  | .shutdown reason isAck => { x with tasks := x.tasks ++ [(reason, isAck)] }
  | .linkUp => x

/-- What can happen at an entity: a call of `BaseClass_Forward`; it hands over the next message; the thread of
the socket writes the next message; up to `n` bytes arrive; the timer for keep-alives expires; the session is
to be terminated; the thread of the socket terminates it. -/
inductive Act
  | forward (bundle user : Bytes)
  | hand
  | write
  | recv (n : Nat)
  | keepAlive
  | terminate (reason : UInt8)
  | task

/-- An action of an entity, when the other one has written `wire`. The timer for keep-alives runs when there is
an interval, Link.cpp:1078-1083, and writes at once, Link.cpp:393-422. -/
def act (cfg : Cfg) (wire : Bytes) (x : Side) : Act → Except Crash Side
  | .forward b u =>
    match forward x.link b u with
    | .error c => .error c
    | .ok (l, none) => .ok { x with link := l }
    | .ok (l, some messages) =>
      .ok { x with link := l, outbox := x.outbox ++ messages, forwarded := x.forwarded ++ [(b, u)] }
  | .hand =>
    match x.outbox with
    | [] => .ok x
    | m :: ms => .ok { x with outbox := ms, posted := x.posted ++ [m] }
  | .write =>
    match x.posted with
    | [] => .ok x
    | m :: ms => .ok { x with posted := ms, out := x.out ++ m }
  | .recv n =>
    let chunk := (wire.drop x.read).take n
    match recv cfg x.link chunk with
    | .error c => .error c
    | .ok (l, effs) => .ok (effs.foldl apply { x with link := l, read := x.read + chunk.length })
  | .keepAlive =>
    if x.link.keep ≠ 0 then .ok { x with out := x.out ++ TcpclV4.genKeepAlive } else .ok x
  | .terminate reason => .ok { x with tasks := x.tasks ++ [(reason, false)] }
  | .task =>
    match x.tasks with
    | [] => .ok x
    | (reason, isAck) :: ts =>
      let t := doShutdown x.link reason isAck
      .ok (t.2.foldl apply { x with link := t.1, tasks := ts })

/-- Two entities on one connection. -/
structure Sys where
  a : Side
  b : Side

/-- An action of the one (`true`) or the other entity. -/
def step (ca cb : Cfg) (s : Sys) : Bool → Act → Except Crash Sys
  | true, x =>
    match act ca s.b.out s.a x with
    | .error c => .error c
    | .ok a => .ok { s with a := a }
  | false, x =>
    match act cb s.a.out s.b x with
    | .error c => .error c
    | .ok b => .ok { s with b := b }

end Hdtn.TcpclV4Link
