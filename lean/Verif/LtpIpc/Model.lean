import Verif.LtpUdpManager.Model

/-!
Model of the shared memory of `common/ltp/src/LtpIpcEngine.cpp` and `common/ltp/include/LtpIpcEngine.h` in one direction: the sending engine writes packets into a ring of
shared memory, a thread of the receiving engine takes them out, and that engine's own thread processes them; two semaphores keep them apart.

The engines run and are connected (`m_running`); `Stop` and `Reset` are left out. The sender's step up to the copy and its commit are two steps; the others are one
step each. The positions of the ring are the numbers of packets committed and read, modulo the size (see CircularIndex and C33 for the atomic variables). A packet has less than 2 ^ 32 bytes, so that
`bytesTransferred` does not wrap. The build without the AVX2 decoder of SDNVs is modelled.
-/

namespace Hdtn.LtpIpc

open Hdtn.Sdnv Hdtn.LtpRng Hdtn.LtpUdpManager

/-- `ENGINE_INDEX`, LtpIpcEngine.cpp:24. -/
def engineIndex : Nat := 1

/-- `VerifyIpcPacketReceive`, LtpIpcEngine.cpp:318-377, for a place of the ring that holds `mem` of which `len` bytes are the packet. `none`: the behaviour is not defined. Reads behind the place
are left out: places have at least 100 bytes. -/
def verify (remote : Nat) (mem : Bytes) (len : Nat) : Option Bool :=
  if len ≤ 2 then some false
  else
    match direction (mem.headD 0).toNat with
    | .undefined => none
    | .invalid => some false
    | .toReceiver =>
      let r := decodeU64Classic ((mem.drop 1).take 99)
      if r.2 = 0 then some false else some (r.1 == remote)
    | .toSender =>
      let r := decodeU64Classic ((mem.drop 1).take 99)
      if r.2 = 0 then some false
      else
        let q := decodeU64Classic ((mem.drop (1 + r.2)).take 89)
        if q.2 = 0 then some false else some (engineIndexOf q.1 == engineIndex)

/-- The loop of `DoSendPacket`, LtpIpcEngine.cpp:409-419: `bytesTransferred`, what was copied, and whether all was. -/
def fill (cap : Nat) : List Bytes → Nat → Bytes → Nat × Bytes × Bool
  | [], t, out => (t, out, true)
  | b :: bs, t, out => if cap < t + b.length then (t + b.length, out, false) else fill cap bs (t + b.length) (out ++ b)

/-- The shared memory with its users: number of places, bytes in a place, id of the engine that the reader expects; the places (`bytesTransferred` and memory); the semaphores
`m_waitUntilNotFull…` and `m_waitUntilNotEmpty…`; packets committed and read; the packet that the sender has copied and not committed; packets posted to the receiving engine (place
and length); packets being written to disk; what the receiving engine was handed; packets that were committed, in order; packets that did not fit; whether one of the conditions
occurred that the program calls fatal; whether the behaviour is not defined. -/
structure Ring where
  n : Nat
  cap : Nat
  remote : Nat
  slots : List (Nat × Bytes)
  free : Nat
  data : Nat := 0
  w : Nat := 0
  r : Nat := 0
  pending : Option Bytes := none
  posted : List (Nat × Nat) := []
  ongoing : Nat := 0
  handed : List Bytes := []
  committed : List Bytes := []
  lost : Nat := 0
  fatal : Bool := false
  undef : Bool := false
deriving DecidableEq, Repr

/-- The constructors, LtpIpcEngine.cpp:85-97 and LtpIpcEngine.h:54-59. -/
def Ring.init (n cap remote : Nat) : Ring :=
  { n := n, cap := cap, remote := remote, slots := List.replicate n (0, List.replicate cap 0), free := n - 1 }

/-- `DoSendPacket` up to the copy, LtpIpcEngine.cpp:381-419. If the semaphore is 0 the thread waits: nothing happens yet, and the packet is that of a later event. -/
def Ring.send (s : Ring) (bufs : List Bytes) : Ring :=
  if s.pending.isSome then s
  else if s.free = 0 then s
  else
    let s : Ring := { s with free := s.free - 1 }
    if s.r % s.n = (s.w + 1) % s.n then { s with fatal := true }
    else
      let old := (s.slots.getD (s.w % s.n) (0, [])).2
      match fill s.cap bufs 0 [] with
      | (t, out, true) => { s with slots := s.slots.set (s.w % s.n) (t, out ++ old.drop out.length), pending := some out }
      | (t, out, false) => { s with slots := s.slots.set (s.w % s.n) (t, out ++ old.drop out.length), lost := s.lost + 1 }

/-- The end of `DoSendPacket`, LtpIpcEngine.cpp:420-421. -/
def Ring.commit (s : Ring) : Ring :=
  match s.pending with
  | none => s
  | some p => { s with pending := none, w := s.w + 1, data := s.data + 1, committed := s.committed ++ [p] }

/-- A turn of `ReadRemoteTxShmThreadFunc`, LtpIpcEngine.cpp:266-307. -/
def Ring.receive (s : Ring) : Ring :=
  if s.data = 0 then s
  else
    let s : Ring := { s with data := s.data - 1 }
    if s.w % s.n = s.r % s.n then { s with fatal := true }
    else
      let i := s.r % s.n
      let p := s.slots.getD i (0, [])
      let s : Ring := { s with r := s.r + 1 }
      match verify s.remote p.2 p.1 with
      | none => { s with undef := true }
      | some false => { s with free := s.free + 1 }
      | some true => { s with posted := s.posted ++ [(i, p.1)] }

/-- The engine's thread runs `PacketIn` with the bytes that are in the place now, LtpEngine.cpp:369-399; `disk`: the data is being written to disk afterwards. With
`PacketInFullyProcessedCallback`, LtpIpcEngine.cpp:312-316. -/
def Ring.process (s : Ring) (disk : Bool) : Ring :=
  match s.posted with
  | [] => s
  | (i, len) :: rest =>
    let s : Ring := { s with posted := rest, handed := s.handed ++ [(s.slots.getD i (0, [])).2.take len] }
    if disk then { s with ongoing := s.ongoing + 1 } else { s with free := s.free + 1 }

/-- A write to disk has ended: `NotifyEngineThatThisReceiverCompletedDeferredOperation`, LtpEngine.cpp:1312-1321. -/
def Ring.complete (s : Ring) : Ring :=
  if s.ongoing = 0 then s else { s with ongoing := s.ongoing - 1, free := s.free + 1 }

inductive Ev
  | send (bufs : List Bytes)
  | commit
  | receive
  | process (disk : Bool)
  | complete
deriving DecidableEq, Repr

def Ring.step (s : Ring) : Ev → Ring
  | .send bufs => s.send bufs
  | .commit => s.commit
  | .receive => s.receive
  | .process disk => s.process disk
  | .complete => s.complete

def Ring.run (s : Ring) (evs : List Ev) : Ring := evs.foldl Ring.step s

end Hdtn.LtpIpc
