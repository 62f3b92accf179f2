import Verif.Stream.Model

/-!
What the streaming of RTP packets is to do.
-/

namespace Hdtn.Stream.Spec

/-- The packets that were given to the sender. -/
def given : List Ev → List Bytes
  | [] => []
  | .packet p :: es => p :: given es
  | _ :: es => given es

/-- The version in the header of an RTP packet, RFC 3550 5.1; packets that are too short have none. -/
def version (p : Bytes) : Option Nat := if p.length < 12 then none else p.head?.map fun a => a.toNat / 64

/-- An RTP packet of version 2. -/
def IsRtp (p : Bytes) : Prop := version p = some 2

instance : DecidablePred IsRtp := fun _ => inferInstanceAs (Decidable (_ = _))

/-- What the program lets through: versions 2 and 3. -/
def Passes (p : Bytes) : Prop := version p = some 2 ∨ version p = some 3

instance : DecidablePred Passes := fun _ => inferInstanceAs (Decidable (_ ∨ _))

/-- Packets are below 4 GB. -/
def Small (es : List Ev) : Prop := ∀ p ∈ given es, p.length < 2 ^ 32

/-- The payload of a bundle: for each packet its length in eight bytes, the lowest one first, and the packet. -/
inductive Payload : List Bytes → Bytes → Prop
  | nil : Payload [] []
  | cons (p : Bytes) (ps : List Bytes) (len rest : Bytes) (h8 : len.length = 8)
      (hlen : ∀ i b, len[i]? = some b → b.toNat = p.length / 256 ^ i % 256) (hr : Payload ps rest) : Payload (p :: ps) (len ++ p ++ rest)

/-- While the length of a payload was told and the payload not copied yet, no bundle is overwritten in the queue. -/
def Calm (c : Cfg) : Send → List Ev → Prop
  | _, [] => True
  | s, e :: es => (s.reserved = none ∨ (s.step c e).outOverruns = s.outOverruns) ∧ Calm c (s.step c e) es

/-- The payloads that arrived at the receiver. -/
def arrived : List REv → List Bytes
  | [] => []
  | .payload b :: es => b :: arrived es
  | .process :: es => arrived es

/-- Whenever a payload arrives there is room in the queue. -/
def Room (cap : Nat) : Receive → List REv → Prop
  | _, [] => True
  | r, e :: es => (∀ b, e = .payload b → r.queue.length < cap) ∧ Room cap (r.step cap e) es

end Hdtn.Stream.Spec
