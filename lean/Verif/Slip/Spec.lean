import Verif.Slip.Model

/-!
SLIP as RFC 1055 has it, and what is meant by bytes, calls and notes of a history.
-/

namespace Hdtn.Slip.Spec

/-- `Stuffed data w`: `w` is `data` with every END (C0) written as DB DC and every ESC (DB) written
as DB DD. -/
inductive Stuffed : Bytes → Bytes → Prop
  | nil : Stuffed [] []
  | fin {data w : Bytes} (h : Stuffed data w) : Stuffed (0xC0 :: data) (0xDB :: 0xDC :: w)
  | esc {data w : Bytes} (h : Stuffed data w) : Stuffed (0xDB :: data) (0xDB :: 0xDD :: w)
  | plain {c : UInt8} {data w : Bytes} (h1 : c ≠ 0xC0) (h2 : c ≠ 0xDB) (h : Stuffed data w) :
      Stuffed (c :: data) (c :: w)

/-- A packet on the line: END, the stuffed data, END. -/
def Packet (data w : Bytes) : Prop := ∃ m, Stuffed data m ∧ w = 0xC0 :: (m ++ [0xC0])

/-- The packets of several bundles, one after the other. -/
inductive Packets : List Bytes → Bytes → Prop
  | nil : Packets [] []
  | cons {b : Bytes} {bs : List Bytes} {w ws : Bytes} (h : Packet b w) (hs : Packets bs ws) :
      Packets (b :: bs) (w ++ ws)

/-- The bytes among the events of the receiving side. -/
def bytesOf : List RxEvent → Bytes
  | [] => []
  | .byte c :: es => c :: bytesOf es
  | .pop :: es => bytesOf es

/-- The bundles the receiving side has put out: given to its user or waiting to be. -/
def received (s : Rx) : List Bytes := s.delivered ++ s.ring

/-- A bundle that can be received: not empty and not too large. -/
def fits (cfg : Cfg) (b : Bytes) : Bool := decide (b ≠ []) && decide (b.length ≤ cfg.maxSize)

/-- The ring has room for another bundle after each event. -/
def KeepsUp (cfg : Cfg) (s : Rx) (es : List RxEvent) : Prop :=
  ∀ pre, pre <+: es → (s.run cfg pre).ring.length + 1 < cfg.slots

/-- The calls of `Forward` in a history that took the bundle, in order. -/
def taken (maxTx : Nat) : Tx → List TxEvent → List (Bytes × Nat)
  | _, [] => []
  | s, .forward b tag :: es =>
    if (s.forward maxTx b tag).2 then (b, tag) :: taken maxTx (s.step maxTx (.forward b tag)) es
    else taken maxTx (s.step maxTx (.forward b tag)) es
  | s, e :: es => taken maxTx (s.step maxTx e) es

end Hdtn.Slip.Spec
