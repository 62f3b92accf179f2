import Verif.Base

/-!
# The TCP convergence layer link, version 3

Models `common/tcpcl/src/TcpclV3BidirectionalLink.cpp` (below: Link.cpp): what an entity does
with the messages its parser reports, and `BaseClass_Forward`; of
`common/util/src/TcpAsyncSender.cpp` the queue of what is written; then two entities on one
connection, `TcpclBundleSource.cpp` on the active and `TcpclBundleSink.cpp` on the passive side.

Simplifications.  Messages are not bytes here: that they survive their encoding, however the
bytes are chunked, is the matter of `Verif/TcpclV3`.  A data segment without contents makes
the parser take what follows for contents (Tcpcl.cpp:289-301): here the receiver understands
nothing from then on.  The limit for the size of received bundles, which the parser checks only
when a length arrives in pieces, is left out.  Timers: a keep-alive may be sent and a session
may be shut down at any time.  The socket of the passive side, once closed, gives nothing more.
Names of endpoints, counters and logging are left out.
-/

namespace Hdtn.TcpclV3Link

/-- A message as the parser reports it (Tcpcl.h, the callbacks).  Of the flags of a contact
header (`CONTACT_HEADER_FLAGS`) two are used. -/
inductive Msg where
  | contact (acks lengths : Bool)
  | data (isStart isEnd : Bool) (d : Bytes)
  | ack (total : Nat)
  | length (n : Nat)
  | refuse
  | keepalive
  | shutdown
deriving DecidableEq, Repr

/-- `TcpAsyncSenderElement`: a message, and the bundle if it is the element which owns it. -/
abbrev El := Msg × Option Bytes

/-- One place of the ring of bundles to be acknowledged: `m_base_userDataCbVec`,
`m_base_bytesToAckCbVec`, `m_base_fragmentBytesToAckCbVec`, `m_base_fragmentVectorIndexCbVec`
(Link.cpp:69-73). -/
structure Entry where
  user : Nat
  size : Nat
  frags : List Nat
  idx : Nat
deriving DecidableEq, Repr

/-- The configuration: `M_BASE_MAX_UNACKED_BUNDLES_IN_PIPELINE` and `M_BASE_MAX_FRAGMENT_SIZE`
(Link.cpp:67, :74). -/
structure Cfg where
  maxUnacked : Nat
  frag : Nat
deriving Repr

/-- One entity.  `ready`: `m_base_readyToForward`; `wantsAck`, `wantsLen`: `m_base_contactHeaderFlags`;
`ring`: what is between the indices of `m_base_bytesToAckCb`; `concat`:
`m_base_fragmentedBundleRxConcat`; `pend`: elements which `BaseClass_Forward` made and has not yet
posted; `out`: `m_queueTcpAsyncSenderElements`, with what is posted to it; `error`:
`m_sendErrorOccurred`, or the sender is deleted; `deaf`: nothing is received any more.  For
the statements: `accepted`, the bundles taken by Forward with their user data, `delivered`,
those given to the user, `success` and `returned`, the calls of the user's callbacks. -/
structure End where
  active : Bool := false
  ready : Bool := false
  wantsAck : Bool := false
  wantsLen : Bool := false
  ring : List Entry := []
  concat : Bytes := []
  pend : List El := []
  out : List El := []
  error : Bool := false
  deaf : Bool := false
  accepted : List (Nat × Bytes) := []
  delivered : List Bytes := []
  success : List Nat := []
  returned : List (Option Nat × Bytes) := []
deriving Repr

/-- Models the loop which cuts a bundle (Link.cpp:505-540); `k` bounds the rounds. -/
def segs (f : Nat) : Nat → Bool → Bytes → List Msg
  | 0, s, d => [.data s true d]
  | k + 1, s, d =>
    if d.length ≤ f then [.data s true d]
    else .data s false (d.take f) :: segs f k false (d.drop f)

/-- Models what the same loop writes down for the acknowledgements (Link.cpp:534-535). -/
def cums (f : Nat) : Nat → Nat → Bytes → List Nat
  | 0, n, d => [n + d.length]
  | k + 1, n, d => if d.length ≤ f then [n + d.length] else (n + f) :: cums f k (n + f) (d.drop f)

/-- Whether a bundle is cut (Link.cpp:500). -/
def Cfg.cuts (c : Cfg) (d : Bytes) : Bool := c.frag ≠ 0 && c.frag < d.length

/-- The data segments of a bundle (Link.cpp:500-540, 566-588). -/
def Cfg.segments (c : Cfg) (d : Bytes) : List Msg :=
  if c.cuts d then segs c.frag d.length true d else [.data true true d]

/-- The elements for these segments: the last one owns the bundle (Link.cpp:512-525, 572-579). -/
def own (d : Bytes) : List Msg → List El
  | [] => []
  | [m] => [(m, some d)]
  | m :: ms => (m, none) :: own d ms

/-- Models `BaseClass_Forward` (Link.cpp:462-590): whether it accepts, and what it leaves.  The ring
has `maxUnacked + 5` places, of which one stays free (Link.cpp:68, CircularIndexBuffer). -/
def End.forward (c : Cfg) (e : End) (u : Nat) (d : Bytes) : Bool × End :=
  if e.ready = false then (false, e)
  else if c.maxUnacked + 4 ≤ e.ring.length then (false, e)
  else
    let entry : Entry :=
      { user := u, size := d.length,
        frags := if c.cuts d then cums c.frag d.length 0 d else [], idx := 0 }
    let len : List El := if e.wantsLen then [(.length d.length, none)] else []
    (true, { e with
      ring := e.ring ++ [entry]
      pend := e.pend ++ len ++ own d (c.segments d)
      accepted := e.accepted ++ [(u, d)] })

/-- Models `DoFailedBundleCallback` (TcpAsyncSender.cpp:109-116): the user data of the element were
never set (Link.cpp:490 keeps them in the ring). -/
def El.back (x : El) : List (Option Nat × Bytes) :=
  match x.2 with
  | some d => if d = [] then [] else [(none, d)]
  | none => []

/-- Models `AsyncSend_NotThreadSafe` (TcpAsyncSender.cpp:51-67). -/
def End.send (e : End) (x : El) : End :=
  if e.error then { e with returned := e.returned ++ x.back }
  else { e with out := e.out ++ [x] }

/-- Models one element of Forward being posted (Link.cpp:563, 569, 587; TcpAsyncSender.cpp:69-71). -/
def End.post (e : End) : End :=
  match e.pend with
  | [] => e
  | x :: p => ({ e with pend := p } : End).send x

/-- Models a failed write (TcpAsyncSender.cpp:74-90).  What was written only in part is taken as
not written. -/
def End.fail (e : End) : End :=
  { e with error := true, out := [], returned := e.returned ++ e.out.flatMap El.back }

/-- Models the end of the shutdown on the passive side (Link.cpp:390-438): the sender is deleted
with all it holds, and the socket too. -/
def End.close (e : End) : End := { e with error := true, out := [], deaf := true }

/-- Models `BaseClass_DoHandleSocketShutdown` (Link.cpp:352-388). -/
def End.stop (e : End) (tell : Bool) : End :=
  let e : End := { e with ready := false }
  if tell then e.send (.shutdown, none) else e

/-- What a data segment does to the reassembly (Link.cpp:186-208): the buffer, the bundle if it is
whole, and the bytes to acknowledge. -/
def take1 (k : Bytes) (s e : Bool) (d : Bytes) : Bytes × List Bytes × Nat :=
  if s && e then (k, [d], d.length)
  else
    let k' := (if s then [] else k) ++ d
    (k', if e then [k'] else [], k'.length)

/-- Models `BaseClass_DataSegmentCallback` (Link.cpp:186-223). -/
def End.dataIn (e : End) (s f : Bool) (d : Bytes) : End :=
  let r := take1 e.concat s f d
  let e : End := { e with concat := r.1, delivered := e.delivered ++ r.2.1 }
  if e.wantsAck then e.send (.ack r.2.2, none) else e

/-- Models `BaseClass_AckCallback` (Link.cpp:225-267). -/
def End.ackIn (e : End) (n : Nat) : End :=
  match e.ring with
  | [] => e
  | x :: r =>
    let y : Entry :=
      if x.frags = [] then x
      else { x with idx := x.idx + 1
                    frags := if x.idx + 1 = x.frags.length then [] else x.frags }
    if y.frags = [] ∧ y.size = n then { e with ring := r, success := e.success ++ [x.user] }
    else { e with ring := y :: r }

/-- Models the callbacks of the parser; for the contact header Link.cpp:610-695, for refusals
(which are not implemented) Link.cpp:592-596.  A shutdown message makes the entity shut down
later (Link.cpp:331-350), which is an event of its own. -/
def End.recv (e : End) : Msg → End
  | .contact acks lengths =>
    let e : End := { e with wantsAck := acks, wantsLen := lengths }
    let e : End := if e.active then e else e.send (.contact true false, none)
    { e with ready := true }
  | .data s f d => e.dataIn s f d
  | .ack n => e.ackIn n
  | .length _ => e
  | .refuse => e
  | .keepalive => e
  | .shutdown => e

/-- Two entities, and what TCP carries from `a` to `b` and back. -/
structure Sys where
  a : End
  b : End
  ab : List Msg := []
  ba : List Msg := []
deriving Repr

/-- The same, seen from the other side. -/
def Sys.swap (s : Sys) : Sys := { a := s.b, b := s.a, ab := s.ba, ba := s.ab }

/-- What an entity does: the user forwards a bundle; an element of Forward is posted; the first
element of the queue is written; a write fails; the socket is closed and deleted; the session is
shut down (with a message or without); a keep-alive is sent; the next message is received. -/
inductive Ev where
  | forward (u : Nat) (d : Bytes)
  | post
  | write
  | fail
  | close
  | stop (tell : Bool)
  | keepalive
  | recv
deriving DecidableEq, Repr

/-- One event at `a`. -/
def Sys.stepA (c : Cfg) (s : Sys) : Ev → Sys
  | .forward u d => { s with a := (s.a.forward c u d).2 }
  | .post => { s with a := s.a.post }
  | .write =>
    match s.a.out with
    | [] => s
    | x :: o => { s with a := { s.a with out := o }, ab := s.ab ++ [x.1] }
  | .fail => { s with a := s.a.fail }
  | .close => { s with a := s.a.close }
  | .stop tell => { s with a := s.a.stop tell }
  | .keepalive => { s with a := s.a.send (.keepalive, none) }
  | .recv =>
    if s.a.deaf then s
    else match s.ba with
      | [] => s
      | m :: l =>
        match m with
        | .data _ _ [] => { s with a := { s.a with deaf := true } }
        | m => { s with a := s.a.recv m, ba := l }

/-- What happens: an event at the active side, one at the passive side, or the active side
connects again. -/
inductive Act where
  | left (e : Ev)
  | right (e : Ev)
  | reconnect
deriving DecidableEq, Repr

/-- Models the active side's connecting again (TcpclBundleSource.cpp:129-162, 246-262): a new
sender and a new socket, a new entity on the passive side; the ring is what it was. -/
def Sys.reconnect (s : Sys) : Sys :=
  { a := { s.a with ready := false, pend := [], out := [(.contact true false, none)],
                    error := false, deaf := false }
    b := { delivered := s.b.delivered, accepted := s.b.accepted, success := s.b.success,
           returned := s.b.returned } }

/-- One event. -/
def Sys.step (c : Cfg) (s : Sys) : Act → Sys
  | .left e => s.stepA c e
  | .right e => (s.swap.stepA c e).swap
  | .reconnect => s.reconnect

/-- Just connected: the active side has a contact header to send (TcpclBundleSource.cpp:148-158). -/
def Sys.init : Sys :=
  { a := { active := true, out := [(.contact true false, none)] }, b := {} }

/-- A whole history. -/
def Sys.run (c : Cfg) (es : List Act) : Sys := es.foldl (Sys.step c) Sys.init

end Hdtn.TcpclV3Link
