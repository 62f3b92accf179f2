import Verif.LtpWire.Model
import Verif.Sdnv.Spec

/-!
LTP segments on the wire (RFC 5326 section 3), independent of the parser. Numbers may be spelt with
any number of bytes up to ten.
-/

namespace Hdtn.LtpWire.Spec

open Hdtn.Sdnv.Spec Hdtn.LtpReport

/-- `p` are the extensions `xs`: tag, length, value. -/
inductive IsExts : Bytes → List Ext → Prop
  | nil : IsExts [] []
  | cons {q p : Bytes} {x : Ext} {xs : List Ext} : IsSdnv64 q x.value.length → IsExts p xs →
    IsExts (x.tag :: (q ++ (x.value ++ p))) (x :: xs)

/-- The numbers of a list of claims in the order in which they are written. -/
def claimNums (cs : List Claim) : List Nat := cs.flatMap fun c => [c.offset, c.length]

/-- `p` are the contents `c` of a segment of type `flags`:
red data 0, checkpoints 1 to 3, green data 4 and 7, report 8, acknowledgement of a report 9, cancellation
by the sender 12 and by the receiver 14, acknowledgement of a cancellation to the sender 13 and to the
receiver 15. -/
inductive IsContent : Nat → Bytes → Content → Prop
  | plainData {flags : Nat} {p d : Bytes} {c o : Nat} : flags = 0 ∨ flags = 4 ∨ flags = 7 → d ≠ [] →
    Split p [c, o, d.length] d → IsContent flags p (.data flags ⟨c, o, d.length, none⟩ (some d))
  | checkpoint {flags : Nat} {p d : Bytes} {c o k r : Nat} : flags = 1 ∨ flags = 2 ∨ flags = 3 → d ≠ [] →
    Split p [c, o, d.length, k, r] d →
    IsContent flags p (.data flags ⟨c, o, d.length, some (k, r)⟩ (some d))
  | report {p : Bytes} {r : ReportNums} {cs : List Claim} : cs ≠ [] → (∀ c ∈ cs, c.length ≠ 0) →
    Split p ([r.reportSerial, r.checkpointSerial, r.upper, r.lower, cs.length] ++ claimNums cs) [] →
    IsContent 8 p (.report r cs)
  | reportAck {p : Bytes} {n : Nat} : IsSdnv64 p n → IsContent 9 p (.reportAck n)
  | cancelBySender {b : UInt8} : IsContent 12 [b] (.cancel b true)
  | cancelByReceiver {b : UInt8} : IsContent 14 [b] (.cancel b false)
  | cancelAckToSender : IsContent 13 [] (.cancelAck true)
  | cancelAckToReceiver : IsContent 15 [] (.cancelAck false)

/-- `w` is the segment that the callback `e` reports: control byte with version 0, session, numbers of
extensions, header extensions, contents, trailer extensions. -/
def IsSegment (w : Bytes) (e : Event) : Prop :=
  ∃ (flags : Nat) (s x p t : Bytes) (n : UInt8),
    w = UInt8.ofNat flags :: (s ++ n :: (x ++ (p ++ t))) ∧ flags < 16 ∧
    Split s [e.id.engine, e.id.number] [] ∧ n.toNat = e.header.length * 16 + e.trailer.length ∧
    e.trailer.length < 16 ∧ IsExts x e.header ∧ IsContent flags p e.content ∧ IsExts t e.trailer

/-- The same callback, or one for a data segment with trailer whose data is no longer there. -/
def Agrees (e f : Event) : Prop :=
  e = f ∨ f.trailer ≠ [] ∧ ∃ flags m d, f.content = .data flags m (some d) ∧
    e = { f with content := .data flags m none }

/-- The callback `e` for the segment `w`, but for the data of a data segment with trailer. -/
def Reports (w : Bytes) (e : Event) : Prop := ∃ f, IsSegment w f ∧ Agrees e f

/-- Behind complete segments the stream has a report with `count` as the number of its claims. -/
def Announces (stream : Bytes) (count : Nat) : Prop :=
  ∃ (ws : List Bytes) (es : List Event) (s x p rest : Bytes) (n : UInt8) (engine number a b c d : Nat)
    (header : List Ext),
    stream = ws.flatten ++ (8 :: (s ++ n :: (x ++ (p ++ rest)))) ∧ List.Forall₂ IsSegment ws es ∧
    Split s [engine, number] [] ∧ n.toNat / 16 = header.length ∧ IsExts x header ∧
    Split p [a, b, c, d, count] []

/-- No report of the stream announces 2^31 claims or more. -/
def Modest (stream : Bytes) : Prop := ∀ count, Announces stream count → count < 2 ^ 31

/-- Ten bytes at the end of the buffer, all of them with the top bit set. -/
def CutAtTen (buf : Bytes) : Prop :=
  ∃ t bs, buf = t ++ bs ∧ bs.length = 10 ∧ ∀ b ∈ bs, 128 ≤ b.toNat

/-- No data segment with trailer extensions is reported. -/
def NoTrailedData (es : List Event) : Prop :=
  ∀ e ∈ es, e.trailer ≠ [] → ∀ flags m d, e.content ≠ .data flags m d

/-- Values that fit into 64 bits, and at most 15 extensions. -/
def ExtsFit (xs : List Ext) : Prop := xs.length ≤ 15 ∧ ∀ x ∈ xs, x.value.length < 2 ^ 64

end Hdtn.LtpWire.Spec
