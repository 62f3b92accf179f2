import Verif.Base

/-!
Model of the streaming of RTP packets: `BpSendStream`, /repo/common/bpcodec/apps/BpSendStream/src/BpSendStream.cpp ("Send.cpp" below), with `DtnRtp`,
/repo/common/streaming/src/DtnRtp.cpp ("Rtp.cpp"), and `BpReceiveStream`, /repo/common/bpcodec/apps/BpReceiveStream/src/BpReceiveStream.cpp ("Receive.cpp").

Each part of a thread that runs under a mutex is one event, so all interleavings of the threads are histories. Both ends are taken to have 64-bit
little-endian `size_t`. The statistics other than the counts of overruns, the clock rate, and the start and the end of the programs are not modelled.
-/

namespace Hdtn.Stream

/-- `boost::circular_buffer::push_back` with the capacity `cap`: if it is full the first one is overwritten; with no capacity nothing is done. -/
def ring {α : Type} (cap : Nat) (q : List α) (x : α) : List α :=
  if cap ≤ q.length then
    match q with
    | [] => []
    | _ :: q => q ++ [x]
  else q ++ [x]

/-- The eight bytes of a `size_t`. -/
def le8 (n : Nat) : Bytes := (List.range 8).map fun i => UInt8.ofNat (n / 256 ^ i)

/-- The `size_t` in eight bytes. -/
def fromLe : Bytes → Nat
  | [] => 0
  | b :: bs => b.toNat + 256 * fromLe bs

/-- The result of `PacketHandler`. -/
inductive Status
  | invalidHeader
  | invalidVersion
  | firstFrame
  | pushPrevious
deriving DecidableEq, Repr

/-- `PacketHandler`, Rtp.cpp:131-172. `session` tells whether `m_ssrc` is there. `RTP_VERSION_TWO_FLAG` is `3 << 15`, DtnRtpFrame.h:55; the flags are the
first two bytes, the first one being the higher one. -/
def packetHandler (session : Bool) (p : Bytes) : Status :=
  if p.length < 12 then .invalidHeader
  else
    match p with
    | a :: b :: _ =>
      if (3 * 2 ^ 15) &&& (a.toNat * 256 + b.toNat) = 0 then .invalidVersion
      else if session then .pushPrevious
      else .firstFrame
    | _ => .invalidHeader

/-- `BpSendStream`. `taken` is the local variable `incomingRtpFrame`; `group` is `m_outgoingRtpPacketQueue` and `groupBytes` is `m_rtpBytesInQueue`. The last
three members are not in the program: the length that was told in step 1 if step 2 is not done yet; the payloads that were handed over; and whether memory
was used that was not there. -/
structure Send where
  incoming : List Bytes
  inOverruns : Nat
  taken : Option Bytes
  session : Bool
  current : Bytes
  group : List Bytes
  groupBytes : Nat
  outgoing : List Bytes
  outOverruns : Nat
  reserved : Option Nat
  sent : List Bytes
  fault : Bool
deriving DecidableEq, Repr

/-- At the start, Send.cpp:21-40. -/
def Send.start : Send := ⟨[], 0, none, false, [], [], 0, [], 0, none, [], false⟩

/-- `numCircularBufferVectors` and `numRtpPacketsPerBundle`. -/
structure Cfg where
  cap : Nat
  perBundle : Nat
deriving DecidableEq, Repr

/-- `WholeBundleReadyCallback`, Send.cpp:107-117. -/
def Send.packet (c : Cfg) (s : Send) (p : Bytes) : Send :=
  { s with
    inOverruns := if c.cap ≤ s.incoming.length then s.inOverruns + 1 else s.inOverruns
    incoming := ring c.cap s.incoming p }

/-- The processing thread takes a packet, Send.cpp:128-136. -/
def Send.take (s : Send) : Send :=
  match s.taken, s.incoming with
  | none, p :: q => { s with taken := some p, incoming := q }
  | _, _ => s

/-- The copies into the vector `outgoingBundle` of `size` bytes, Send.cpp:184-196, which is filled with zeros; nothing if they go beyond it. -/
def copyAll (size : Nat) (ps : List Bytes) : Option Bytes :=
  if ps.flatten.length ≤ size then some (ps.flatten ++ List.replicate (size - ps.flatten.length) 0) else none

/-- `PushBundle`, Send.cpp:182-208. -/
def Send.pushBundle (c : Cfg) (s : Send) : Send :=
  match copyAll s.groupBytes s.group with
  | none => { s with fault := true }
  | some b =>
    { s with
      group := []
      groupBytes := 0
      outOverruns := if c.cap ≤ s.outgoing.length then s.outOverruns + 1 else s.outOverruns
      outgoing := ring c.cap s.outgoing b }

/-- `PushFrame`, Send.cpp:162-180. -/
def Send.pushFrame (c : Cfg) (s : Send) : Send :=
  let s1 : Send := { s with
    group := s.group ++ [le8 s.current.length ++ s.current]
    groupBytes := (s.groupBytes + s.current.length + 8) % U64
    current := [] }
  if s1.group.length = c.perBundle then s1.pushBundle c else s1

/-- The processing thread handles the packet it took, Send.cpp:138-153 (and `CreateFrame`, 156-159). -/
def Send.handle (c : Cfg) (s : Send) : Send :=
  match s.taken with
  | none => s
  | some p =>
    let s : Send := { s with taken := none }
    match packetHandler s.session p with
    | .firstFrame => { s with session := true, current := p }
    | .pushPrevious => { s.pushFrame c with current := p }
    | _ => s

/-- `GetNextPayloadLength_Step1`, Send.cpp:214-222: the answer, which is `UINT64_MAX` if there is nothing. -/
def Send.length (s : Send) : Nat :=
  match s.outgoing with
  | [] => U64 - 1
  | b :: _ => b.length

/-- Step 1: the caller keeps the answer; with `UINT64_MAX` it waits, BpSourcePattern.cpp:448. -/
def Send.step1 (s : Send) : Send :=
  match s.reserved, s.outgoing with
  | none, _ :: _ => { s with reserved := some s.length }
  | _, _ => s

/-- `CopyPayload_Step2`, Send.cpp:224-235, into the memory for the payload, which has the length that was told and held `junk` before. -/
def Send.step2 (s : Send) (junk : Nat → UInt8) : Send :=
  match s.reserved with
  | none => s
  | some n =>
    match s.outgoing with
    | [] => { s with fault := true }
    | b :: q =>
      if b.length ≤ n then
        { s with outgoing := q, reserved := none, sent := s.sent ++ [b ++ ((List.range n).drop b.length).map junk] }
      else { s with fault := true }

/-- What happens at the sender. -/
inductive Ev
  | packet (p : Bytes)
  | take
  | handle
  | step1
  | step2 (junk : Nat → UInt8)

/-- One event. -/
def Send.step (c : Cfg) (s : Send) : Ev → Send
  | .packet p => s.packet c p
  | .take => s.take
  | .handle => s.handle c
  | .step1 => s.step1
  | .step2 junk => s.step2 junk

/-- A history. -/
def Send.run (c : Cfg) (s : Send) (es : List Ev) : Send := es.foldl (Send.step c) s

/-- The inner loop of `ProcessIncomingBundlesThread`, Receive.cpp:102-132, for the bytes of the payload from the offset on: the packets, and whether memory
beyond the payload is used. The first number bounds the rounds. -/
def unpack : Nat → Bytes → List Bytes × Bool
  | 0, _ => ([], true)
  | fuel + 1, rest =>
    if rest.length < 8 then ([], true)
    else
      let n := fromLe (rest.take 8)
      let body := rest.drop 8
      if body.length < n then ([], true)
      else if body.drop n = [] then ([body.take n], false)
      else
        let r := unpack fuel (body.drop n)
        (body.take n :: r.1, r.2)

/-- `BpReceiveStream`: the queue of payloads, the packets that went out, and whether memory was used that was not there. -/
structure Receive where
  queue : List Bytes
  out : List Bytes
  fault : Bool
deriving DecidableEq, Repr

/-- At the start. -/
def Receive.start : Receive := ⟨[], [], false⟩

/-- What happens at the receiver: a payload arrives; the thread processes one. -/
inductive REv
  | payload (b : Bytes)
  | process
deriving DecidableEq, Repr

/-- `ProcessPayload`, Receive.cpp:138-150, and one round of `ProcessIncomingBundlesThread`, Receive.cpp:82-135. -/
def Receive.step (cap : Nat) (r : Receive) : REv → Receive
  | .payload b => { r with queue := ring cap r.queue b }
  | .process =>
    match r.queue with
    | [] => r
    | b :: q =>
      let u := unpack (b.length + 1) b
      ⟨q, r.out ++ u.1, r.fault || u.2⟩

/-- A history. -/
def Receive.run (cap : Nat) (r : Receive) (es : List REv) : Receive := es.foldl (Receive.step cap) r

end Hdtn.Stream
