import Verif.LtpUdpManager.Spec
import Verif.LtpIpc.Model

/-!
What is expected of packets of LTP over shared memory.
-/

namespace Hdtn.LtpIpc.Spec

open Hdtn.LtpWire Hdtn.LtpWire.Spec Hdtn.LtpUdpManager.Spec

/-- A segment for the receiving engine: of a block that comes from the expected engine, or about a block that the receiving engine, whose index is 1, sends. -/
def ForEngine (remote : Nat) (w : Bytes) : Prop :=
  ∃ e, IsSegment w e ∧ (bySender e.content = true → e.id.engine = remote) ∧ (bySender e.content = false → LtpRng.engineIndexOf e.id.number = 1)

/-- All packets that are sent are segments for the receiving engine. -/
def AllFor (remote : Nat) (evs : List Ev) : Prop := ∀ bufs, Ev.send bufs ∈ evs → ForEngine remote bufs.flatten

/-- All packets that are sent fit into a place. -/
def AllFit (cap : Nat) (evs : List Ev) : Prop := ∀ bufs, Ev.send bufs ∈ evs → bufs.flatten.length ≤ cap

/-- The packets that are handed to `SendPacket` in a history, in order. -/
def packets (evs : List Ev) : List Bytes := evs.filterMap fun
  | .send bufs => some bufs.flatten
  | _ => none

end Hdtn.LtpIpc.Spec
