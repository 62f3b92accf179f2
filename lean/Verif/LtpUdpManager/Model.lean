import Verif.Sdnv.Model
import Verif.LtpRng.Model

/-!
Model of `common/ltp/src/LtpUdpEngineManager.cpp`: several LTP engines that share one UDP port, and the way of a datagram to one of them; with
`PostPacketFromManager_ThreadSafe` and `PacketInFullyProcessedCallback` of `common/ltp/src/LtpUdpEngine.cpp` and
`GetMessageDirectionFromSegmentFlags` of `common/ltp/src/Ltp.cpp`.

The builds without the AVX2 decoder of SDNVs are modelled (LtpUdpEngineManager.cpp:305-321). What the configuration checks of `AddLtpUdpEngine` refuse, and names
that cannot be resolved, are left out: they return before anything is changed. Errors of the socket are left out.
-/

namespace Hdtn.LtpUdpManager

open Hdtn.Sdnv Hdtn.LtpRng

/-- What `GetMessageDirectionFromSegmentFlags` finds. -/
inductive Way
  /-- A type that only senders of blocks send. -/
  | toReceiver
  /-- A type that only receivers of blocks send. -/
  | toSender
  /-- No type. -/
  | invalid
  /-- The behaviour of the program is not defined. -/
  | undefined
deriving DecidableEq, Repr

/-- `SENDER_TO_RECEIVER_TYPE_MESSAGES`, Ltp.cpp:1673-1682, with the values of Ltp.h:92-107. -/
def senderTypes : Nat := 2 ^ 0 + 2 ^ 1 + 2 ^ 2 + 2 ^ 3 + 2 ^ 4 + 2 ^ 7 + 2 ^ 9 + 2 ^ 12 + 2 ^ 15

/-- `ALL_VALID_MESSAGES`, Ltp.cpp:1684-1687. -/
def allTypes : Nat := senderTypes + 2 ^ 8 + 2 ^ 13 + 2 ^ 14

/-- `GetMessageDirectionFromSegmentFlags`, Ltp.cpp:1650-1693. The number 1, which has been promoted to `int`, is shifted by the byte: that is not defined if the
byte is 32 or more. -/
def direction (flags : Nat) : Way :=
  if 32 ≤ flags then .undefined
  else
    let mask := 2 ^ flags % 2 ^ 16
    if mask &&& allTypes = 0 then .invalid
    else if mask &&& senderTypes ≠ 0 then .toReceiver
    else .toSender

/-- An engine of the manager, `LtpUdpEngine`: the id of the remote engine, its index, the size of its ring of received packets; the packets in the ring, those
that have been processed, and `m_countCircularBufferOverruns`. -/
structure Engine where
  remote : Nat
  index : Nat
  size : Nat
  inbox : List Bytes := []
  done : List Bytes := []
  overruns : Nat := 0
deriving DecidableEq, Repr

/-- `PostPacketFromManager_ThreadSafe`, LtpUdpEngine.cpp:96-116. A ring of `size` places holds one packet less. -/
def Engine.post (e : Engine) (d : Bytes) : Engine :=
  if e.size ≤ e.inbox.length + 1 then { e with overruns := e.overruns + 1 }
  else { e with inbox := e.inbox ++ [d] }

/-- The engine's thread has processed a packet (`PacketIn` and then `PacketInFullyProcessedCallback`, LtpUdpEngine.cpp:142-146). -/
def Engine.process (e : Engine) : Engine :=
  match e.inbox with
  | [] => e
  | d :: ds => { e with inbox := ds, done := e.done ++ [d] }

/-- The manager: `m_mapRemoteEngineIdToLtpUdpEngineReceiver`, `…Transmitter` (in no order), `m_vecEngineIndexToLtpUdpEngineTransmitterPtr` (the id of the remote engine
stands for the pointer), `m_cachedItRemoteEngineIdToLtpUdpEngineReceiver`, `m_nextEngineIndex`, whether the socket is open and receives, and `m_readyToForward`. -/
structure Mgr where
  rx : List Engine := []
  tx : List Engine := []
  slots : List (Option Nat) := List.replicate 256 none
  cache : Option Nat := none
  next : Nat := 1
  opened : Bool := true
  ready : Bool := true
deriving DecidableEq, Repr

/-- `find` of the maps. -/
def find (l : List Engine) (remote : Nat) : Option Engine := l.find? fun e => e.remote == remote

/-- A change of one engine of a map. -/
def change (l : List Engine) (remote : Nat) (f : Engine → Engine) : List Engine :=
  l.map fun e => if e.remote = remote then f e else e

/-- `AddLtpUdpEngine`, LtpUdpEngineManager.cpp:156-244. The result and the manager after it. -/
def Mgr.add (m : Mgr) (induct : Bool) (remote size : Nat) : Bool × Mgr :=
  if 7 < m.next ∧ induct = false then (false, m)
  else if (find (if induct then m.rx else m.tx) remote).isSome then (false, m)
  else if induct then (true, { m with rx := m.rx ++ [{ remote := remote, index := m.next % 256, size := size }] })
  else (true, { m with
    tx := m.tx ++ [{ remote := remote, index := m.next % 256, size := size }]
    next := m.next + 1
    slots := m.slots.set (m.next % 256) (some remote) })

/-- `RemoveLtpUdpEngineByRemoteEngineId_NotThreadSafe`, LtpUdpEngineManager.cpp:123-153. -/
def Mgr.remove (m : Mgr) (induct : Bool) (remote : Nat) : Mgr :=
  match find (if induct then m.rx else m.tx) remote with
  | none => m
  | some e =>
    if induct then { m with
      cache := if m.cache = some remote then none else m.cache
      rx := m.rx.filter fun e => e.remote ≠ remote }
    else { m with
      slots := m.slots.set e.index none
      tx := m.tx.filter fun e => e.remote ≠ remote }

/-- `DoUdpShutdown`, LtpUdpEngineManager.cpp:398-425. -/
def Mgr.shutdown (m : Mgr) : Mgr :=
  { m with ready := false, opened := false, rx := [], cache := none, tx := [] }

/-- A datagram of a sender of blocks, LtpUdpEngineManager.cpp:325-339. The cached iterator is used if its key is the id; an iterator that points to an
engine that is no longer there is not defined. -/
def Mgr.toReceiver (m : Mgr) (origin : Nat) (d : Bytes) : Option Mgr :=
  if m.cache = some origin then
    match find m.rx origin with
    | none => none
    | some _ => some { m with rx := change m.rx origin (·.post d) }
  else
    match find m.rx origin with
    | none => some m
    | some _ => some { m with rx := change m.rx origin (·.post d), cache := some origin }

/-- A datagram of a receiver of blocks, LtpUdpEngineManager.cpp:340-350. A pointer to an engine that is no longer there is not defined. -/
def Mgr.toSender (m : Mgr) (session : Nat) (d : Bytes) : Option Mgr :=
  match m.slots[engineIndexOf session]? with
  | none => none
  | some none => some m
  | some (some remote) =>
    match find m.tx remote with
    | none => none
    | some _ => some { m with tx := change m.tx remote (·.post d) }

/-- `HandleUdpReceive` for a datagram `d`, LtpUdpEngineManager.cpp:278-358; `stale` is what the receive buffer holds behind it. `none`: the behaviour is not defined. -/
def Mgr.receive (m : Mgr) (d stale : Bytes) : Option Mgr :=
  if m.opened = false then some m
  else if d.length ≤ 2 then some m
  else
    let buf := d ++ stale
    match direction (buf.headD 0).toNat with
    | .undefined => none
    | .invalid => some m.shutdown
    | .toReceiver =>
      let r := decodeU64Classic ((buf.drop 1).take 99)
      if r.2 = 0 then some m else m.toReceiver r.1 d
    | .toSender =>
      let r := decodeU64Classic ((buf.drop 1).take 99)
      if r.2 = 0 then some m
      else
        let q := decodeU64Classic ((buf.drop (1 + r.2)).take 89)
        if q.2 = 0 then some m else m.toSender q.1 d

/-- What can happen to a manager. -/
inductive Ev
  | add (induct : Bool) (remote size : Nat)
  | remove (induct : Bool) (remote : Nat)
  | datagram (d stale : Bytes)
  | process (induct : Bool) (remote : Nat)
deriving DecidableEq, Repr

def Mgr.step (m : Mgr) : Ev → Option Mgr
  | .add induct remote size => some (m.add induct remote size).2
  | .remove induct remote => some (m.remove induct remote)
  | .datagram d stale => m.receive d stale
  | .process true remote => some { m with rx := change m.rx remote Engine.process }
  | .process false remote => some { m with tx := change m.tx remote Engine.process }

def Mgr.run (m : Mgr) : List Ev → Option Mgr
  | [] => some m
  | e :: es => (m.step e).bind fun m' => m'.run es

end Hdtn.LtpUdpManager
