import Verif.DelaySim.Model

/-!
What a simulator of a delayed link is to do.
-/

namespace Hdtn.DelaySim.Spec

/-- The packets that arrived and are not dropped by the function for it, with their times, of at most `max` bytes each; `t` is the time at the start. -/
def received (max : Nat) : Nat → List Ev → List (Nat × Bytes)
  | _, [] => []
  | t, .clock d :: es => received max (t + d) es
  | t, .receive p drop :: es => if drop then received max t es else (t, p.take max) :: received max t es
  | t, _ :: es => received max t es

/-- The time of the first packet that arrived. -/
def firstArrival : Nat → List Ev → Option Nat
  | _, [] => none
  | t, .clock d :: es => firstArrival (t + d) es
  | t, .receive _ _ :: _ => some t
  | t, _ :: es => firstArrival t es

/-- The packets that are to be sent: those that arrived and are not dropped by the function for it, while the socket is open, the signal is not lost, and fewer than
`vectors - 1` packets wait. `n` is how many there were before. -/
def accepted (c : Cfg) : Sim → Nat → List Ev → List (Nat × Bytes)
  | _, _, [] => []
  | s, n, .receive p drop :: es =>
    if drop = false ∧ s.closed = false ∧ s.los = false ∧ n - s.sent.length < c.vectors - 1 then
      (s.now, p.take c.maxPacket) :: accepted c (s.step c (.receive p drop)) (n + 1) es
    else accepted c (s.step c (.receive p drop)) n es
  | s, n, e :: es => accepted c (s.step c e) n es

/-- A packet was sent as it arrived, not before the delay was over. -/
def Delayed (delay : Nat) (i o : Nat × Bytes) : Prop := o.2 = i.2 ∧ i.1 + delay ≤ o.1

end Hdtn.DelaySim.Spec
