import Verif.UdpBatch.Model

/-!
What is expected of the sender for many UDP packets.
-/

namespace Hdtn.UdpBatch.Spec

open Hdtn.UdpBatch

/-- The batches that were handed over, in order. -/
def given : List Ev → List Batch
  | [] => []
  | .send b :: evs => b :: given evs
  | .sys _ :: evs => given evs

/-- The datagrams of a batch: each packet is its buffers one after the other. -/
def datagrams (b : Batch) : List Bytes := b.map List.flatten

/-- Every packet of the batch has a buffer. -/
def Full (b : Batch) : Prop := ∀ p ∈ b, p ≠ []

/-- Every batch has a packet, and every packet a buffer. -/
def AllFull (evs : List Ev) : Prop := ∀ b ∈ given evs, b ≠ [] ∧ Full b

/-- The operating system takes a message, or refuses for good. -/
def Result.progress : Result → Bool
  | .messages n => n ≠ 0
  | .error => true
  | _ => false

end Hdtn.UdpBatch.Spec
