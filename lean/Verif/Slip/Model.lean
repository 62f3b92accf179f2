import Verif.Base

/-!
SLIP over a serial line: `common/slip_over_uart/src/slip.c`, `include/slip.h` and the transfer of
bundles by `src/UartInterface.cpp`.

The two rings of the interface are lists here; that a ring with `n` slots behaves as a queue with
room for `n - 1` entries is C33.  Every handler runs to its end before the next starts.
-/

namespace Hdtn.Slip

/-- `SLIP_END` (slip.h:22). -/
def fin : UInt8 := 0xC0
/-- `SLIP_ESC` (slip.h:23). -/
def esc : UInt8 := 0xDB
/-- `SLIP_ESC_END` (slip.h:24). -/
def escFin : UInt8 := 0xDC
/-- `SLIP_ESC_ESC` (slip.h:25). -/
def escEsc : UInt8 := 0xDD

/-- `SlipEncodeChar` (slip.c:74-90), and the body of the loop of `SlipEncode` (slip.c:48-62). -/
def encodeChar (c : UInt8) : Bytes :=
  if c = fin then [esc, escFin] else if c = esc then [esc, escEsc] else [c]

/-- The loop of `SlipEncode` (slip.c:48-62). -/
def encodeChars : Bytes → Bytes
  | [] => []
  | c :: cs => encodeChar c ++ encodeChars cs

/-- `SlipEncode` (slip.c:42-69).  The size is an `unsigned int`. -/
def slipEncode (data : Bytes) (size : Nat) : Bytes :=
  fin :: encodeChars (data.take size) ++ [fin]

/-- What `SlipDecodeChar_Inline` returns: 0, 1 with a character, 2. -/
inductive Decoded where
  | nothing
  | char (c : UInt8)
  | complete
  deriving DecidableEq, Repr

/-- `SlipDecodeChar_Inline` (slip.h:50-73); `prev` is `m_previouslyReceivedChar`. -/
def decodeChar (prev c : UInt8) : UInt8 × Decoded :=
  if c = esc then (c, .nothing)
  else if c = fin then (prev, .complete)
  else
    (c, .char (if prev = esc then
        (if c = escFin then fin else if c = escEsc then esc else c) else c))

/-- The receiving side of a `UartInterface`: `m_slipDecodeState`, `m_currentRxBundlePtr` (`none` is
`NULL`) with what it points to, `m_rxBundleOverran`, the bundles committed to the ring and not yet
taken, and those given to the callback. -/
structure Rx where
  prev : UInt8
  cur : Option Bytes
  over : Bool
  ring : List Bytes
  delivered : List Bytes
  deriving DecidableEq, Repr

/-- The settings: the number of slots of the ring (`M_NUM_RX_CIRCULAR_BUFFER_VECTORS`) and
`m_maxRxBundleSizeBytes`. -/
structure Cfg where
  slots : Nat
  maxSize : Nat

/-- `ResetRxStates` (UartInterface.cpp:241-258). -/
def Rx.reset (cfg : Cfg) (s : Rx) : Rx :=
  { s with
    prev := 0
    over := false
    cur := if cfg.slots ≤ s.ring.length + 1 then none else some [] }

/-- The constructor (UartInterface.cpp:67-79). -/
def Rx.init (cfg : Cfg) : Rx := Rx.reset cfg ⟨0, none, false, [], []⟩

/-- One turn of the loop of `SerialReceiveSomeHandler` (UartInterface.cpp:268-307). -/
def Rx.byte (cfg : Cfg) (s : Rx) (c : UInt8) : Rx :=
  let (p, r) := decodeChar s.prev c
  let s := { s with prev := p }
  match r with
  | .nothing => s
  | .char o =>
    match s.cur with
    | none => s
    | some b => if b.length < cfg.maxSize then { s with cur := some (b ++ [o]) }
        else { s with over := true }
  | .complete =>
    match s.cur with
    | none => s.reset cfg
    | some b =>
      if b ≠ [] ∧ s.over = false then ({ s with ring := s.ring ++ [b] } : Rx).reset cfg
      else s.reset cfg

/-- One turn of the loop of `PopCbThreadFunc` (UartInterface.cpp:324-355): a bundle is taken from
the ring, if there is one. -/
def Rx.pop (s : Rx) : Rx :=
  match s.ring with
  | [] => s
  | b :: bs => { s with ring := bs, delivered := s.delivered ++ [b] }

/-- What happens at the receiving side. -/
inductive RxEvent where
  | byte (c : UInt8)
  | pop

/-- One event. -/
def Rx.step (cfg : Cfg) (s : Rx) : RxEvent → Rx
  | .byte c => s.byte cfg c
  | .pop => s.pop

/-- Several events. -/
def Rx.run (cfg : Cfg) (s : Rx) (es : List RxEvent) : Rx := es.foldl (Rx.step cfg) s

/-- What the sending side tells its user. -/
inductive Note where
  /-- `m_onSuccessfulBundleSendCallback` -/
  | sent (tag : Nat)
  /-- one of the two failure callbacks, with the bundle -/
  | failed (bundle : Bytes) (tag : Nat)
  deriving DecidableEq, Repr

/-- The sending side of a `UartInterface`: the bundles in `m_txBundlesCb` with their user data, the
two flags, the calls of `TrySendBundleIfAvailable_NotThreadSafe` posted and not yet run, the
counters, the notes to the user and the bytes written to the serial line. -/
structure Tx where
  queue : List (Bytes × Nat)
  writing : Bool
  failed : Bool
  posts : Nat
  totalSent : Nat
  totalAcked : Nat
  notes : List Note
  wire : Bytes
  deriving Repr

/-- The constructor (UartInterface.cpp:31-66). -/
def Tx.init : Tx := ⟨[], false, false, 0, 0, 0, [], []⟩

/-- `Forward` (UartInterface.cpp:424-499); `maxTx` is `MAX_TX_BUNDLES_IN_FLIGHT`, one less than the
number of slots.  The result is whether the bundle was taken. -/
def Tx.forward (maxTx : Nat) (s : Tx) (b : Bytes) (tag : Nat) : Tx × Bool :=
  if s.failed then (s, false)
  else if maxTx + 1 ≤ s.queue.length + 1 then (s, false)
  else ({ s with totalSent := s.totalSent + 1, queue := s.queue ++ [(b, tag)],
                 posts := s.posts + 1 }, true)

/-- The bytes `Forward` prepares for a bundle (UartInterface.cpp:441-443): the size is cast to
`unsigned int`. -/
def frame (b : Bytes) : Bytes := slipEncode b (b.length % U32)

/-- `DoFailedBundleCallback` (UartInterface.cpp:522-530): both callbacks are taken to be set. -/
def failNote (e : Bytes × Nat) : List Note :=
  if e.1 = [] then [] else [.failed e.1 e.2]

/-- `EmptySendQueueOnFailure` (UartInterface.cpp:412-422). -/
def Tx.drain (s : Tx) : Tx :=
  { s with queue := [], notes := s.notes ++ s.queue.flatMap failNote }

/-- `TrySendBundleIfAvailable_NotThreadSafe` (UartInterface.cpp:360-381). -/
def Tx.trySend (s : Tx) : Tx :=
  if s.writing then s
  else if s.failed then s.drain
  else
    match s.queue with
    | [] => s
    | _ :: _ => { s with writing := true }

/-- `HandleSerialSend` without error (UartInterface.cpp:387-409).  All bytes were written. -/
def Tx.done (s : Tx) : Tx :=
  match s.queue with
  | [] => s
  | (b, tag) :: rest =>
    Tx.trySend { s with
      writing := false
      wire := s.wire ++ frame b
      totalAcked := s.totalAcked + 1
      notes := s.notes ++ [.sent tag]
      queue := rest }

/-- `HandleSerialSend` with an error (UartInterface.cpp:387-396), after `k` bytes of the bundle. -/
def Tx.broke (s : Tx) (k : Nat) : Tx :=
  match s.queue with
  | [] => s
  | (b, _) :: _ =>
    Tx.drain { s with writing := false, failed := true, wire := s.wire ++ (frame b).take k }

/-- What happens at the sending side.  `posted`: a posted call is run.  `done` and `broke` end a
write in progress. -/
inductive TxEvent where
  | forward (b : Bytes) (tag : Nat)
  | posted
  | done
  | broke (k : Nat)

/-- One event; the write events need a write in progress. -/
def Tx.step (maxTx : Nat) (s : Tx) : TxEvent → Tx
  | .forward b tag => (s.forward maxTx b tag).1
  | .posted => if s.posts = 0 then s else Tx.trySend { s with posts := s.posts - 1 }
  | .done => if s.writing then s.done else s
  | .broke k => if s.writing then s.broke k else s

/-- Several events. -/
def Tx.run (maxTx : Nat) (s : Tx) (es : List TxEvent) : Tx := es.foldl (Tx.step maxTx) s

/-- `GetTotalBundlesUnacked` (UartInterface.cpp:579-581). -/
def Tx.unacked (s : Tx) : Nat := s.totalSent - s.totalAcked

end Hdtn.Slip
