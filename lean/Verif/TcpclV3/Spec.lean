import Verif.TcpclV3.Model

/-!
The wire format of the TCP convergence layer, version 3 (RFC 7242), as relations between bytes and what
the peer is told, without the parser.
-/

namespace Hdtn.TcpclV3.Spec

open Hdtn.Sdnv.Spec

/-- A contact header: `dtn!`, version 3, flags, interval in network order, length and endpoint. -/
inductive IsContact : Bytes → Event → Prop
  | mk (flags hi lo : UInt8) (p eid : Bytes) : IsSdnv64 p eid.length → eid ≠ [] →
    IsContact ([0x64, 0x74, 0x6e, 0x21, 3, flags, hi, lo] ++ (p ++ eid))
      (.contact flags (hi.toNat * 256 + lo.toNat) eid)

/-- The upper half of the first byte of a message. -/
def typeOf (t : UInt8) : Nat := t.toNat / 16

/-- A message other than a contact header. -/
inductive IsMessage : Bytes → Event → Prop
  | data (t : UInt8) (p contents : Bytes) : typeOf t = 1 → IsSdnv64 p contents.length → contents ≠ [] →
    IsMessage (t :: (p ++ contents)) (.data contents (t.toNat.testBit 1) (t.toNat.testBit 0))
  | ack (t : UInt8) (p : Bytes) (n : Nat) : typeOf t = 2 → IsSdnv64 p n → IsMessage (t :: p) (.ack n)
  | refusal (t : UInt8) : typeOf t = 3 → IsMessage [t] (.refusal (t.toNat % 16))
  | keepAlive (t : UInt8) : typeOf t = 4 → IsMessage [t] .keepAlive
  | shutdown (t : UInt8) : typeOf t = 5 → t.toNat.testBit 1 = false → t.toNat.testBit 0 = false →
    IsMessage [t] (.shutdown none none)
  | shutdownReason (t r : UInt8) : typeOf t = 5 → t.toNat.testBit 1 = true → t.toNat.testBit 0 = false →
    IsMessage [t, r] (.shutdown (some r) none)
  | shutdownDelay (t : UInt8) (p : Bytes) (n : Nat) : typeOf t = 5 → t.toNat.testBit 1 = false →
    t.toNat.testBit 0 = true → IsSdnv64 p n → IsMessage (t :: p) (.shutdown none (some n))
  | shutdownBoth (t r : UInt8) (p : Bytes) (n : Nat) : typeOf t = 5 → t.toNat.testBit 1 = true →
    t.toNat.testBit 0 = true → IsSdnv64 p n → IsMessage (t :: r :: p) (.shutdown (some r) (some n))
  | length (t : UInt8) (p : Bytes) (n : Nat) : typeOf t = 6 → IsSdnv64 p n → IsMessage (t :: p) (.length n)

/-- Whether the connection is still up after a message. -/
def staysUp : Event → Bool
  | .shutdown _ _ => false
  | _ => true

/-- What a conforming peer sends, from a connection that is down or up (before or after the contact
header) to one that is down or up: a contact header, messages, a shutdown, a contact header, … -/
inductive Conforms : Bool → Bytes → List Event → Bool → Prop
  | nil (up : Bool) : Conforms up [] [] up
  | contact {w ws : Bytes} {e : Event} {es : List Event} {up : Bool} :
    IsContact w e → Conforms true ws es up → Conforms false (w ++ ws) (e :: es) up
  | message {w ws : Bytes} {e : Event} {es : List Event} {up : Bool} :
    IsMessage w e → Conforms (staysUp e) ws es up → Conforms true (w ++ ws) (e :: es) up

/-- The receiver accepts messages of this size: the endpoint and the contents can be allocated, and the
contents keep to the limit. -/
def Fits (cfg : Cfg) : Event → Prop
  | .contact _ _ eid => eid.length ≤ cfg.room
  | .data c _ _ => c.length ≤ cfg.max ∧ c.length ≤ cfg.room
  | _ => True

/-- The events `es` are explained by the bytes `w`: each by bytes of its own that encode it, in this
order, the first one and the next one after each shutdown being contact headers. In between there may
be bytes that encode nothing; after such bytes a contact header is needed again, unless they are types
of messages that do not exist. -/
inductive Explains : Bytes → List Event → Bool → Prop
  | nil : Explains [] [] false
  | drop {w junk : Bytes} {es : List Event} {up : Bool} : Explains w es up → Explains (w ++ junk) es false
  | unknown {w : Bytes} {es : List Event} {t : UInt8} : Explains w es true → (typeOf t = 0 ∨ 6 < typeOf t) →
    Explains (w ++ [t]) es true
  | contact {w m : Bytes} {es : List Event} {e : Event} : Explains w es false → IsContact m e →
    Explains (w ++ m) (es ++ [e]) true
  | message {w m : Bytes} {es : List Event} {e : Event} : Explains w es true → IsMessage m e →
    Explains (w ++ m) (es ++ [e]) (staysUp e)

/-! ### Sending -/

/-- The function that writes a message. -/
def generate : Event → Bytes
  | .contact f k eid => genContact f k eid
  | .data c s e => genData s e c
  | .ack n => genAck n
  | .refusal c => genRefusal (UInt8.ofNat c)
  | .length n => genLength n
  | .keepAlive => genKeepAlive
  | .shutdown r d => genShutdown r d

/-- The arguments the generators are meant for: numbers of the right width, and neither an empty
endpoint nor empty contents. -/
def Sendable : Event → Prop
  | .contact _ k eid => k < 2 ^ 16 ∧ eid ≠ [] ∧ eid.length < 2 ^ 64
  | .data c _ _ => c ≠ [] ∧ c.length < 2 ^ 64
  | .ack n => n < 2 ^ 64
  | .refusal c => c < 16
  | .length n => n < 2 ^ 64
  | .keepAlive => True
  | .shutdown _ d => ∀ n, d = some n → n < 2 ^ 64

/-- Whether a message is a contact header. -/
def opens : Event → Bool
  | .contact _ _ _ => true
  | _ => false

/-- A proper order of messages: a contact header exactly when the connection is down. -/
def Ordered : Bool → List Event → Prop
  | _, [] => True
  | up, e :: es => opens e = !up ∧ Ordered (staysUp e) es

/-! ### A receiver that is given one byte at a time -/

/-- The receiver when every call has one byte. -/
def bytewise (cfg : Cfg) (p : Phase) (stream : Bytes) : List Event × Phase :=
  feedAll cfg p (stream.map fun b => [b])

/-- One byte at a time, no announced length of a data segment is refused: none is malformed and none is
over the limit. -/
def NoRefusal (cfg : Cfg) (p : Phase) (stream : Bytes) : Prop :=
  ∀ pre b post s e tmp, stream = pre ++ b :: post → (bytewise cfg p pre).2 = .dataLen s e tmp →
    (bytewise cfg p (pre ++ [b])).2 ≠ .sync1

end Hdtn.TcpclV3.Spec
