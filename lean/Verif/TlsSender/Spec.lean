import Verif.TlsSender.Model

/-!
What is expected of the queue of writes.
-/

namespace Hdtn.TlsSender.Spec

open Hdtn.TlsSender

/-- The elements that were sent, in order. -/
def sends : List Ev → List El
  | [] => []
  | .send e :: evs => e :: sends evs
  | _ :: evs => sends evs

/-- All bytes of elements. -/
def bytesOf (es : List El) : Bytes := es.flatMap El.bytes

/-- All bytes written, of both layers. -/
def written (s : Tx) : Bytes := s.wire.flatMap Prod.snd

/-- The reports of elements that were written. -/
def reports (es : List El) : List Note := es.flatMap fun e => if e.callback then [.sent e.tag] else []

/-- The report that bundles failed: a bundle in a vector, or else a bundle in a message, by the callback for it. -/
def failures (c : Cfg) (es : List El) : List Note :=
  es.flatMap fun e => if e.vec && c.vec then [.failedVec e.tag] else if e.zmq && c.zmq then [.failedZmq e.tag] else []

/-- An element is sent only while no element for the other layer is waiting or being written. -/
def Steady (c : Cfg) (evs : List Ev) : Prop :=
  ∀ evs1 evs2 e, evs = evs1 ++ .send e :: evs2 → ∀ f ∈ (Tx.init.run c evs1).queue, f.layer = e.layer

end Hdtn.TlsSender.Spec
