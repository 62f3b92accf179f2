import Verif.Udp.Model

/-!
What is meant by the bundles, bytes and times of a history.
-/

namespace Hdtn.Udp.Spec

/-- The calls of `Forward` in a history that took the bundle, in order. -/
def taken (cfg : Cfg) : Source → List Event → List Pkt
  | _, [] => []
  | s, e :: es =>
    (match e with
      | .forward p => if (s.forward cfg p).2 then [p] else []
      | _ => []) ++
    (match s.step cfg e with
      | some s' => taken cfg s' es
      | none => [])

/-- All bundles of a history are given in the same form. -/
def OneKind (zmq : Bool) (es : List Event) : Prop := ∀ p, .forward p ∈ es → p.zmq = zmq

/-- The bundles that have been taken and whose sending has not ended. -/
def pending (s : Source) : List Pkt := s.flight ++ s.vecQ ++ s.zmqQ ++ s.posted

/-- The bytes whose sending is started in a part of the log. -/
def bytesOf : List Mark → Nat
  | [] => 0
  | .started n :: l => n + bytesOf l
  | _ :: l => bytesOf l

/-- The time that passes in a part of the log. -/
def timeOf : List Mark → Nat
  | [] => 0
  | .passed d :: l => d + timeOf l
  | _ :: l => timeOf l

/-- The rate is not changed. -/
def RateKept (es : List Event) : Prop := ∀ r, Event.setRate r ∉ es

/-- The datagrams that arrive at a sink. -/
def arrivals : List SinkEvent → List Bytes
  | [] => []
  | .datagram d :: es => d :: arrivals es
  | .pop :: es => arrivals es

end Hdtn.Udp.Spec
