import Verif.Base

/-!
Model of the repeater for encapsulation packets.

 - EncapRepeater.cpp is in /repo/module/encap_repeater/src, EncapAsyncDuplexLocalStream.h in /repo/common/util/include.

Simplifications: how bytes become packets is the model Encap (the statements about both are joined in Props.lean); a read that is started while its
stream is not connected fails, and is left out; stopping is left out.
-/

namespace Hdtn.EncapRepeater

/-- One direction, from the stream that is read to the other: is the first connected, is a read pending (`m_readStarted`), is the second ready to send,
its connections up to now, `StreamInfo` of the second (`toSendQueue`, `writeInProgress` with the connection of the write, `sendErrorOccurred`), and
for the statements: the packets that came, those that were written whole, and the pieces that were written on each connection. -/
structure Dir where
  queueSize : Nat
  rxUp : Bool
  reading : Bool
  txUp : Bool
  conn : Nat
  queue : List Bytes
  writing : Option Nat
  err : Bool
  got : List Bytes
  sent : List Bytes
  wire : List (Nat × Bytes)
deriving DecidableEq, Repr

/-- As it is constructed and configured, EncapRepeater.cpp:92-121 (`m_queueSize` is set and not used). -/
def Dir.init (queueSize : Nat) : Dir := ⟨queueSize, false, false, false, 0, [], none, false, [], [], []⟩

/-- `TrySendQueued`, EncapRepeater.cpp:166-181. -/
def Dir.trySend (d : Dir) : Dir :=
  if !d.queue.isEmpty && d.txUp && !d.err && d.writing.isNone then { d with writing := some d.conn } else d

/-- `StartReadFirstEncapHeaderByte_NotThreadSafe`, EncapAsyncDuplexLocalStream.h:382-391. -/
def Dir.startRead (d : Dir) : Dir := if d.rxUp then { d with reading := true } else d

/-- The test `toSendQueue.size() < 5` and what follows, EncapRepeater.cpp:159-161 and 198-201. -/
def Dir.resume (d : Dir) : Dir := if d.queue.length < 5 then d.startRead else d

/-- `OnFullEncapPacketReceived`, EncapRepeater.cpp:136-162, after a read ended (EncapAsyncDuplexLocalStream.h:490-493). -/
def Dir.packet (d : Dir) (p : Bytes) : Dir :=
  if d.reading then Dir.resume (Dir.trySend { d with reading := false, queue := d.queue ++ [p], got := d.got ++ [p] }) else d

/-- `HandleSend`, EncapRepeater.cpp:183-202: the write ended whole, or with an error after some bytes. -/
def Dir.handleSend (d : Dir) (error : Option Nat) : Dir :=
  match d.writing, d.queue with
  | some c, p :: queue =>
    Dir.resume (Dir.trySend (match error with
      | none => { d with queue := queue, writing := none, sent := d.sent ++ [p], wire := d.wire ++ [(c, p)] }
      | some k => { d with queue := queue, writing := none, err := true, wire := d.wire ++ [(c, p.take k)] }))
  | _, _ => d

/-- The stream that is read is connected or lost: EncapAsyncDuplexLocalStream.h:374-380 and 498-500. -/
def Dir.source (d : Dir) (up : Bool) : Dir :=
  if up then Dir.startRead { d with rxUp := true, reading := false } else { d with rxUp := false, reading := false }

/-- The stream that is written is connected or lost: the same lines, and `OnLocalStreamConnectionStatusChanged`, EncapRepeater.cpp:124-134. -/
def Dir.target (d : Dir) (up : Bool) : Dir :=
  if up then Dir.trySend { d with txUp := true, conn := d.conn + 1 } else { d with txUp := false }

/-- Things that happen to a direction. -/
inductive DirEv
  | packet (p : Bytes)
  | written (error : Option Nat)
  | source (up : Bool)
  | target (up : Bool)
deriving DecidableEq, Repr

def Dir.step (d : Dir) : DirEv → Dir
  | .packet p => d.packet p
  | .written e => d.handleSend e
  | .source up => d.source up
  | .target up => d.target up

def Dir.run (d : Dir) (evs : List DirEv) : Dir := evs.foldl Dir.step d

/-- The two streams (false and true): `dir i` reads stream `i` and writes the other (`otherStreamIndex`, EncapRepeater.cpp:100). -/
structure Repeater where
  dir : Bool → Dir

def Repeater.init (queueSize : Nat) : Repeater := ⟨fun _ => Dir.init queueSize⟩

/-- Things that happen to the streams: a packet comes on a stream; a write on a stream ends; a stream is connected or lost. -/
inductive Ev
  | packet (i : Bool) (p : Bytes)
  | written (i : Bool) (error : Option Nat)
  | connection (i : Bool) (up : Bool)
deriving DecidableEq, Repr

/-- The callbacks with the index of their stream, EncapRepeater.cpp:105-108 and 147-148. -/
def Repeater.step (r : Repeater) : Ev → Repeater
  | .packet i p => ⟨fun j => if j = i then (r.dir j).packet p else r.dir j⟩
  | .written i e => ⟨fun j => if j = !i then (r.dir j).handleSend e else r.dir j⟩
  | .connection i up => ⟨fun j => if j = i then (r.dir j).source up else (r.dir j).target up⟩

def Repeater.run (r : Repeater) (evs : List Ev) : Repeater := evs.foldl Repeater.step r

end Hdtn.EncapRepeater
